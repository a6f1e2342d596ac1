import Verif.SpecShare
import Verif.SpecProgM
import Verif.Model.MachineHandles

/-
Programs with shared storage (SpecShare.lean) on a 64-bit machine: every library call is replaced by its 64-bit counterpart, and the size conditions
under which nothing overflows, stated on the abstract state.  A held view or subarray is described abstractly by the places of its elements; whether
its index arithmetic fits depends also on its strides, which the conditions carry along: `strides x` for a held view or subarray `x`, computed from those of
the object it was taken from.  Nothing here models library code; `execM` only calls the model of the library functions.
-/
set_option autoImplicit false

namespace MultiArray.Spec
open MultiArray
variable {T : Type}

/-! ### What fits -/

/-- The documented strides of an array. -/
def SArr.strides (h : SArr) : List Int := (List.range h.extents.length).map (strideOf h.order h.extents)

/-- The array fits the machine: (product of the non-zero extents) + `Σ |base_d * stride_d|` is below 2^63, and its indices lie strictly inside the
index type. -/
def SArr.Fits (h : SArr) : Prop := sizeBound h.extents + absDot h.bases h.strides < 2 ^ 63 ∧ InsideIndex h.bases h.extents

/-- The strides of the part selected by a path. -/
def pathStrides (strides : List Int) : List Sel → List Int
  | [] => strides
  | .at _ :: ss => pathStrides strides.tail ss
  | .view xs :: ss | .viewFrom xs _ :: ss => pathStrides (viewStrides (xs.map IndexArg.toRange) strides) ss

namespace SState

/-- The strides of a variable: documented for an array or reference, remembered in `σ` for a held view or subarray. -/
def strides (A : SState T) (σ : Nat → List Int) (x : Nat) : List Int :=
  match A.vars x with
  | some (.owner h) | some (.ref h) => h.strides
  | _ => σ x

/-- The strides of held views and subarrays after a command. -/
def stridesAfter (A : SState T) (σ : Nat → List Int) : SCmd T → Nat → List Int
  | .hold x y ss xs => fun z => if z = x then pathStrides (A.strides σ y) (ss ++ [.view xs]) else σ z
  | .holdCopy x y => fun z => if z = x then A.strides σ y else σ z
  | .holdSub x y _ => fun z => if z = x then (A.strides σ y).tail else σ z
  | _ => σ

/-- The views in the expression `x ss` fit. -/
def ExprFits (A : SState T) (σ : Nat → List Int) (x : Nat) (ss : List Sel) : Prop :=
  ∀ v p, A.vars x = some v → v.part = some p → p.whole.PathFits (A.strides σ x) ss

/-- What has to fit for one command: the arrays it makes or gives a new shape or new index bases, and the views in its expressions. -/
def CmdFits (dflt : T) (A : SState T) (σ : Nat → List Int) : SCmd T → Prop
  | .construct _ (.copy _) => True
  | .construct _ i => (∀ y ss so al, i = .convert y ss so al → A.ExprFits σ y ss) ∧ ∀ a, A.initValue dflt i = some a → a.Fits
  | .refTo _ _ first n es so => SArr.Fits ⟨0, first, List.replicate n 0, es, so⟩
  | .refGen _ _ first _ rs so => SArr.Fits ⟨0, first, reqBases rs, reqExtents rs, so⟩
  | .hold _ y ss xs => A.ExprFits σ y (ss ++ [.view xs])
  | .reindex x bs => (∀ h, A.vars x = some (.owner h) ∨ A.vars x = some (.ref h) → SArr.Fits { h with bases := bs }) ∧
      (∀ p, A.vars x = some (.view p) → InsideIndex bs p.extents ∧ absDot bs (σ x) + span p.extents (σ x) < 2 ^ 63)
  | .reshape x es => ∀ h, A.vars x = some (.owner h) ∨ A.vars x = some (.ref h) → SArr.Fits { h with extents := es }
  | .resize x rs => ∀ h, A.vars x = some (.owner h) → SArr.Fits { h with bases := reqBases rs, extents := reqExtents rs }
  | .assign x ss y ss' | .copyArray x ss y ss' | .equal x ss y ss' | .less x ss y ss' => A.ExprFits σ x ss ∧ A.ExprFits σ y ss'
  | .read x ss _ | .write x ss _ _ | .forEach x ss _ | .traverse x ss | .shape x ss => A.ExprFits σ x ss
  | .buffer .. | .refCopy .. | .holdCopy .. | .holdSub .. | .destroy .. | .fill .. => True

/-- Throughout the program everything fits. -/
def FitRun (dflt : T) (eq lt : T → T → Bool) : List (SCmd T) → SState T → (Nat → List Int) → Prop
  | [], _, _ => True
  | c :: cs, A, σ => A.CmdFits dflt σ c ∧ ∀ o A', A.step dflt eq lt c = some (o, A') → FitRun dflt eq lt cs A' (A.stridesAfter σ c)

end SState

/-! ### The commands on the 64-bit model of the library -/

namespace SWorld

/-- The expression `x ss`. -/
def lookupM (dbg : Bool) (w : SWorld T) (x : Nat) (ss : List Sel) : Option Desc := (w.desc x).bind (fun d => Res.val? (resolveM dbg ss d))

/-- The constructor call. -/
def ctorM (dbg : Bool) (dflt : T) (w : SWorld T) : CInit → Option (Out T MArr)
  | .default n al => some (Machine.mkDefault dflt n al w.st)
  | .extents n es so al => some (Machine.mkExtents dflt n es so al w.st)
  | .gen n rs so al => some (Machine.mkExtentGen dflt ⟨n, rs⟩ so al w.st)
  | .copy y =>
    match w.vars y with
    | some (.owner a) => some (MArr.mkCopy dflt a w.st)
    | _ => none
  | .convert y ss so al => (w.lookupM dbg y ss).map (fun d => Machine.mkConvert dbg dflt d so al w.st)

/-- `y[i]`. -/
def bracketM (dbg : Bool) (w : SWorld T) (y : Nat) (i : Int) : Res SubObj :=
  match w.vars y with
  | some (.sub s) => Machine.subBracket dbg w.scope s i
  | _ => Machine.objBracket dbg w.scope y i

/-- One command on the 64-bit model of the library; `none` if it throws, fails an assertion or is undefined (in particular if an `index` computation
overflows). -/
def execM (dbg : Bool) (dflt : T) (eq lt : T → T → Bool) (w : SWorld T) : SCmd T → Option (CObs T × SWorld T)
  | .buffer x vs => some (.basic .unit, w.setVar x (some (.buffer ⟨w.st.next, 0⟩ vs.length)) (newBuffer w.st vs))
  | .construct x i => (w.ctorM dbg dflt i).bind (fun r => (Out.val? r).map (fun r => (.basic .unit, w.setVar x (some (.owner r.1)) r.2)))
  | .refTo x y first n es so => (w.dataOf y).bind (fun p => (Res.val? (Machine.ofExtents n (p.add (first : Int)) es so)).map (fun a =>
      (.basic .unit, w.setVar x (some (.ref a)) w.st)))
  | .refGen x y first n rs so => (w.dataOf y).bind (fun p => (Res.val? (Machine.ofExtentGen (p.add (first : Int)) ⟨n, rs⟩ so)).map (fun a =>
      (.basic .unit, w.setVar x (some (.ref a)) w.st)))
  | .refCopy x y =>
    match w.vars y with
    | some (.owner a) => some (.basic .unit, w.setVar x (some (.ref a.ref)) w.st)
    | some (.ref a) => some (.basic .unit, w.setVar x (some (.ref a)) w.st)
    | _ => none
  | .hold x y ss xs => (w.lookupM dbg y ss).bind (fun d => (Res.val? (do
      let g ← chainIndicesM IndexGen.empty xs
      Machine.generateArrayView dbg g d)).map (fun v => (.basic .unit, w.setVar x (some (.view v)) w.st)))
  | .holdCopy x y =>
    match w.vars y with
    | some (.view v) => some (.basic .unit, w.setVar x (some (.view v)) w.st)
    | _ => none
  | .holdSub x y i =>
    (Res.val? (w.bracketM dbg y i)).map (fun s => (.basic .unit, w.setVar x (some (.sub s)) w.st))
  | .destroy x =>
    match w.vars x with
    | some (.owner a) => (Out.val? (a.deallocateSpace w.st)).map (fun r => (.basic .unit, w.setVar x none r.2))
    | some (.buffer p _) => some (.basic .unit, w.setVar x none (freeBuffer w.st p))
    | _ => some (.basic .unit, w.setVar x none w.st)
  | .reindex x bs =>
    match w.vars x with
    | some (.owner a) => (Res.val? (Machine.reindex a.ref bs)).map (fun r => (.basic .unit, w.setVar x (some (.owner { a with ref := r })) w.st))
    | some (.ref a) => (Res.val? (Machine.reindex a bs)).map (fun r => (.basic .unit, w.setVar x (some (.ref r)) w.st))
    | some (.view v) => (Res.val? (Machine.viewReindex v bs)).map (fun r => (.basic .unit, w.setVar x (some (.view r)) w.st))
    | _ => none
  | .reshape x es =>
    match w.vars x with
    | some (.owner a) => (Res.val? (Machine.reshape dbg a.ref es)).map (fun r => (.basic .unit, w.setVar x (some (.owner { a with ref := r })) w.st))
    | some (.ref a) => (Res.val? (Machine.reshape dbg a es)).map (fun r => (.basic .unit, w.setVar x (some (.ref r)) w.st))
    | _ => none
  | .resize x rs =>
    match w.vars x with
    | some (.owner a) =>
      (Out.val? (Machine.resize dbg dflt ⟨a.ref.numDims, rs⟩ a w.st).1).map (fun r =>
        (.basic .unit, w.setVar x (some (.owner (Machine.resize dbg dflt ⟨a.ref.numDims, rs⟩ a w.st).2)) r.2))
    | _ => none
  | .fill x input =>
    match w.vars x with
    | some (.owner a) => w.mem (a.ref.assign input) (fun _ => .basic .unit)
    | some (.ref a) => w.mem (a.assign input) (fun _ => .basic .unit)
    | _ => none
  | .assign x ss y ss' => (w.lookupM dbg x ss).bind (fun d => (w.lookupM dbg y ss').bind (fun d' =>
      w.mem (Machine.assignOpW dbg (decide (x = y) && ss.isEmpty && ss'.isEmpty) eltCopy d d') (fun _ => .basic .unit)))
  | .copyArray x ss y ss' => (w.lookupM dbg x ss).bind (fun d => (w.lookupM dbg y ss').bind (fun d' =>
      w.mem (Machine.copyArrayW dbg eltCopy d' d) (fun _ => .basic .unit)))
  | .read x ss idx => (w.lookupM dbg x ss).bind (fun d => w.mem (Machine.readElem dbg d idx) (fun v => .basic (.value v)))
  | .write x ss idx v => (w.lookupM dbg x ss).bind (fun d => w.mem (Machine.writeElem dbg d idx v) (fun _ => .basic .unit))
  | .forEach x ss f => (w.lookupM dbg x ss).bind (fun d => w.mem (Machine.forEach dbg f d.extents.length d) (fun _ => .basic .unit))
  | .traverse x ss => (w.lookupM dbg x ss).bind (fun d =>
      (Res.val? (Machine.nestedLoop dbg d.extents.sum d.extents.length d)).bind (fun ps => ps.bind (fun ps =>
        (ps.mapM (fun p => w.st.get? p)).map (fun vs => (.values vs, w)))))
  | .equal x ss y ss' => (w.lookupM dbg x ss).bind (fun d => (w.lookupM dbg y ss').bind (fun d' =>
      (Res.val? (Machine.equalRef dbg eq w.st d.extents.length d d')).map (fun b => (.bool b, w))))
  | .less x ss y ss' => (w.lookupM dbg x ss).bind (fun d => (w.lookupM dbg y ss').bind (fun d' =>
      (Res.val? (Machine.lessRef dbg lt w.st d.extents.length d d')).map (fun b => (.bool b, w))))
  | .shape x ss => (w.lookupM dbg x ss).map (fun d => (.shape d.bases d.extents, w))

/-- Run a program on the 64-bit model of the library. -/
def execAllM (dbg : Bool) (dflt : T) (eq lt : T → T → Bool) : List (SCmd T) → SWorld T → Option (List (CObs T) × SWorld T)
  | [], w => some ([], w)
  | c :: cs, w => (w.execM dbg dflt eq lt c).bind (fun r => (execAllM dbg dflt eq lt cs r.2).map (fun r' => (r.1 :: r'.1, r'.2)))

end SWorld
end MultiArray.Spec
