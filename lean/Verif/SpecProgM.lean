import Verif.SpecProg
import Verif.SpecMachine
import Verif.Model.MachineOps

/-
Whole client programs on a 64-bit machine: the programs of SpecProg.lean with every library call replaced by its 64-bit counterpart
(`Machine.lean`, `MachineIt.lean`, `MachineOps.lean`), and the size conditions under which they are free of overflow, stated on the
abstract arrays.  Nothing here models library code; `execM` and `resolveM` only call the model of the library functions.
-/
set_option autoImplicit false

namespace MultiArray.Spec
open MultiArray
variable {T : Type}

/-! ### What fits -/

/-- The documented strides of an abstract array. -/
def AbsArr.strides (a : AbsArr T) : List Int := (List.range a.extents.length).map (strideOf a.order a.extents)

/-- The array fits the machine: (product of the non-zero extents) + `Σ |base_d * stride_d|` is below 2^63, and its indices lie strictly inside the
index type. -/
def AbsArr.Fits (a : AbsArr T) : Prop := sizeBound a.extents + absDot a.bases a.strides < 2 ^ 63 ∧ InsideIndex a.bases a.extents

/-- The distance between the first and the last element of a part, dimension by dimension: `Σ (extent_d - 1) * |stride_d|`. -/
def span : (extents : List Nat) → (strides : List Int) → Nat
  | e :: es, s :: ss => (e - 1) * s.natAbs + span es ss
  | _, _ => 0

/-- Strides of a view: one per range (integers drop their dimension). -/
def viewStrides : (ranges : List IndexRange) → (strides : List Int) → List Int
  | r :: rs, s :: ss => if r.degenerate_ then viewStrides rs ss else (r.stride_ * s) :: viewStrides rs ss
  | _, _ => []

/-- The ranges of a view expression involve only representable numbers. -/
def ViewFits (p : APart) (strides : List Int) (xs : List IndexArg) : Prop :=
  RangesFit p.bases p.extents strides (xs.map IndexArg.toRange) ∧ absDot (startsOf (xs.map IndexArg.toRange) p.bases) strides < 2 ^ 63

/-- Every view along a path fits.  `[i]` needs no condition; a reindexed view needs that its new indices fit. -/
def APart.PathFits (p : APart) (strides : List Int) : List Sel → Prop
  | [] => True
  | .at i :: ss => (p.sel (.at i)).PathFits strides.tail ss
  | .view xs :: ss => ViewFits p strides xs ∧ (p.sel (.view xs)).PathFits (viewStrides (xs.map IndexArg.toRange) strides) ss
  | .viewFrom xs bs :: ss => ViewFits p strides xs ∧
      InsideIndex bs (viewCounts (xs.map IndexArg.toRange) p.bases p.extents) ∧
      absDot bs (viewStrides (xs.map IndexArg.toRange) strides) +
        span (viewCounts (xs.map IndexArg.toRange) p.bases p.extents) (viewStrides (xs.map IndexArg.toRange) strides) < 2 ^ 63 ∧
      (p.sel (.viewFrom xs bs)).PathFits (viewStrides (xs.map IndexArg.toRange) strides) ss

/-- The views in the expression `x ss` fit. -/
def AState.ExprFits (A : AState T) (x : Nat) (ss : List Sel) : Prop := ∀ a, A x = some a → a.whole.PathFits a.strides ss

/-- The views in the expressions of a command fit. -/
def Cmd.ViewsFit (A : AState T) : Cmd T → Prop
  | .construct _ (.convert y ss _ _) => A.ExprFits y ss
  | .construct _ _ | .destroy _ | .on _ _ | .assign _ _ => True
  | .assignPart x ss y ss' | .copyArray x ss y ss' | .equal x ss y ss' | .less x ss y ss' => A.ExprFits x ss ∧ A.ExprFits y ss'
  | .read x ss _ | .write x ss _ _ | .forEach x ss _ | .traverse x ss | .shape x ss => A.ExprFits x ss

/-- Every array of the state fits. -/
def AState.Fits (A : AState T) : Prop := ∀ x a, A x = some a → a.Fits

/-- Throughout the program the arrays and the views used fit. -/
def AState.FitRun (dflt : T) (eq lt : T → T → Bool) : List (Cmd T) → AState T → Prop
  | [], A => A.Fits
  | c :: cs, A => A.Fits ∧ c.ViewsFit A ∧ ∀ o A', A.step dflt eq lt c = some (o, A') → AState.FitRun dflt eq lt cs A'

/-- The arrays a command creates or reshapes fit. -/
def NewFits (dflt : T) (A : AState T) : Cmd T → Prop
  | .construct _ (.copy _) => True
  | .construct _ i => ∀ a, i.value dflt A = some a → a.Fits
  | .on x (.reindex bs) => ∀ a, A x = some a → ({ a with bases := bs } : AbsArr T).Fits
  | .on x (.reindexAll b) => ∀ a, A x = some a → ({ a with bases := List.replicate a.extents.length b } : AbsArr T).Fits
  | .on x (.reshape es) => ∀ a, A x = some a → ({ a with extents := es } : AbsArr T).Fits
  | .on x (.resize rs) => ∀ a, A x = some a → ({ a with bases := reqBases rs, extents := reqExtents rs } : AbsArr T).Fits
  | .on x (.resizeList es) => ∀ a, A x = some a → ({ a with bases := List.replicate es.length 0, extents := es } : AbsArr T).Fits
  | _ => True

/-! ### The commands on the 64-bit model of the library -/

/-- `g[x1][x2]...[xN]` on an index generator. -/
def chainIndicesM (g : IndexGen) : List IndexArg → Res IndexGen
  | [] => .ok g
  | .range r :: xs => do chainIndicesM (← g.pushRange r) xs
  | .index i :: xs => do chainIndicesM (← Machine.pushIdx g i) xs

/-- The library calls of an expression. -/
def resolveM (dbg : Bool) : List Sel → Desc → Res Desc
  | [], d => .ok d
  | .at i :: ss, d => do resolveM dbg ss (← Machine.access dbg i d)
  | .view xs :: ss, d => do
    let g ← chainIndicesM IndexGen.empty xs
    let v ← Machine.generateArrayView dbg g d
    resolveM dbg ss v.desc
  | .viewFrom xs bs :: ss, d => do
    let g ← chainIndicesM IndexGen.empty xs
    let v ← Machine.generateArrayView dbg g d
    let v ← Machine.viewReindex v bs
    resolveM dbg ss v.desc

/-- Run a constructor. -/
def Ctor.runM (dbg : Bool) (dflt : T) : Ctor → Exec T MArr
  | .default n al => Machine.mkDefault dflt n al
  | .extents n es so al => Machine.mkExtents dflt n es so al
  | .gen n rs so al => Machine.mkExtentGen dflt ⟨n, rs⟩ so al
  | .copy _ a => MArr.mkCopy dflt a
  | .convert _ src so al => Machine.mkConvert dbg dflt src so al

/-- An operation on memory that should complete. -/
def World.memM {α : Type} (w : World T) (e : Exec T α) : Option (CObs T × World T) :=
  (Out.val? (e w.st)).map (fun r => (.basic .unit, { w with st := r.2 }))

/-- A constructor that should complete. -/
def World.ctorM (dbg : Bool) (dflt : T) (w : World T) (x : Nat) (c : Ctor) : Option (CObs T × World T) :=
  (Out.val? (c.runM dbg dflt w.st)).map (fun r => (.basic .unit, w.set x (some r.1) r.2))

/-- The operations of C52 on one array. -/
def concStepM (dbg : Bool) (dflt : T) (a : MArr) (s : St T) : AOp T → Option (Obs T × MArr × St T)
  | .read idx => (Out.val? (Machine.readElem dbg a.ref.desc idx s)).map (fun r => (.value r.1, a, r.2))
  | .readChain idx => (Out.val? (Machine.readChain dbg a.ref.desc idx s)).map (fun r => (.value r.1, a, r.2))
  | .write idx v => (Out.val? (Machine.writeElem dbg a.ref.desc idx v s)).map (fun r => (.unit, a, r.2))
  | .writeChain idx v => (Out.val? (Machine.writeChain dbg a.ref.desc idx v s)).map (fun r => (.unit, a, r.2))
  | .reindex bs => (Res.val? (Machine.reindex a.ref bs)).map (fun ref => (.unit, { a with ref := ref }, s))
  | .reindexAll b => (Res.val? (Machine.reindexAll a.ref b)).map (fun ref => (.unit, { a with ref := ref }, s))
  | .reshape es => (Res.val? (Machine.reshape dbg a.ref es)).map (fun ref => (.unit, { a with ref := ref }, s))
  | .assign input => (Out.val? (a.ref.assign input s)).map (fun r => (.unit, a, r.2))
  | .forEach f => (Out.val? (Machine.forEach dbg f a.ref.desc.extents.length a.ref.desc s)).map (fun r => (.unit, a, r.2))
  | .resize rs =>
    let r := Machine.resize dbg dflt ⟨a.ref.numDims, rs⟩ a s
    (Out.val? r.1).map (fun q => (.unit, r.2, q.2))
  | .resizeList es =>
    let r := Machine.resizeExtents dbg dflt es a s
    (Out.val? r.1).map (fun q => (.unit, r.2, q.2))
  | .query => (Res.val? a.ref.size).map
      (fun sz => (.info a.ref.numDims sz a.ref.numElements a.ref.extents a.ref.bases a.ref.strides, a, s))

/-- The descriptor of the expression `x ss`. -/
def World.lookupM (dbg : Bool) (w : World T) (x : Nat) (ss : List Sel) : Option Desc :=
  (w.objs x).bind (fun a => Res.val? (resolveM dbg ss a.ref.desc))

/-- One command on the 64-bit model of the library; `none` if it throws, fails an assertion or is undefined (in particular if an `index`
computation overflows). -/
def World.execM (dbg : Bool) (dflt : T) (eq lt : T → T → Bool) (w : World T) : Cmd T → Option (CObs T × World T)
  | .construct x i =>
    match i with
    | .default n al => w.ctorM dbg dflt x (.default n al)
    | .extents n es so al => w.ctorM dbg dflt x (.extents n es so al)
    | .gen n rs so al => w.ctorM dbg dflt x (.gen n rs so al)
    | .copy y => (w.objs y).bind (fun a => w.ctorM dbg dflt x (.copy a.ref.numDims a))
    | .convert y ss so al => (w.lookupM dbg y ss).bind (fun d => w.ctorM dbg dflt x (.convert d.extents.length d so al))
  | .destroy x => (w.objs x).bind (fun a => (Out.val? (a.deallocateSpace w.st)).map (fun r => (.basic .unit, w.set x none r.2)))
  | .on x op => (w.objs x).bind (fun a => (concStepM dbg dflt a w.st op).map (fun r => (.basic r.1, w.set x (some r.2.1) r.2.2)))
  | .assign x y => (w.objs x).bind (fun a => (w.objs y).bind (fun a' => w.memM (Machine.assignFrom dbg (decide (x = y)) a a')))
  | .assignPart x ss y ss' => (w.lookupM dbg x ss).bind (fun d => (w.lookupM dbg y ss').bind (fun d' =>
      w.memM (Machine.assignOpW dbg false eltCopy d d')))
  | .copyArray x ss y ss' => (w.lookupM dbg x ss).bind (fun d => (w.lookupM dbg y ss').bind (fun d' =>
      w.memM (Machine.copyArrayW dbg eltCopy d' d)))
  | .read x ss idx => (w.lookupM dbg x ss).bind (fun d =>
      (Out.val? (Machine.readElem dbg d idx w.st)).map (fun r => (.basic (.value r.1), { w with st := r.2 })))
  | .write x ss idx v => (w.lookupM dbg x ss).bind (fun d => w.memM (Machine.writeElem dbg d idx v))
  | .forEach x ss f => (w.lookupM dbg x ss).bind (fun d => w.memM (Machine.forEach dbg f d.extents.length d))
  | .traverse x ss => (w.lookupM dbg x ss).bind (fun d =>
      (Res.val? (Machine.nestedLoop dbg d.extents.sum d.extents.length d)).bind (fun ps => ps.bind (fun ps =>
        (ps.mapM (fun p => w.st.get? p)).map (fun vs => (.values vs, w)))))
  | .equal x ss y ss' => (w.lookupM dbg x ss).bind (fun d => (w.lookupM dbg y ss').bind (fun d' =>
      (Res.val? (Machine.equalRef dbg eq w.st d.extents.length d d')).map (fun b => (.bool b, w))))
  | .less x ss y ss' => (w.lookupM dbg x ss).bind (fun d => (w.lookupM dbg y ss').bind (fun d' =>
      (Res.val? (Machine.lessRef dbg lt w.st d.extents.length d d')).map (fun b => (.bool b, w))))
  | .shape x ss => (w.lookupM dbg x ss).map (fun d => (.shape d.bases d.extents, w))

/-- Run a program on the 64-bit model of the library. -/
def World.execAllM (dbg : Bool) (dflt : T) (eq lt : T → T → Bool) : List (Cmd T) → World T → Option (List (CObs T) × World T)
  | [], w => some ([], w)
  | c :: cs, w => (w.execM dbg dflt eq lt c).bind (fun r => (World.execAllM dbg dflt eq lt cs r.2).map (fun r' => (r.1 :: r'.1, r'.2)))

end MultiArray.Spec
