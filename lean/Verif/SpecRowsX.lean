import Verif.SpecRows
import Verif.SpecProgX

/-
Row algorithms (SpecRows.lean) when allocation, element construction and element assignment may throw: the algorithm is left at the exception, its
temporaries are destroyed, most recent first, and the exception reaches the caller.  What the rows may be then, on plain lists.  Nothing here models library code:
`RAlg.execX` only calls the model of the library functions.
-/
set_option autoImplicit false

namespace MultiArray.Spec
open MultiArray
variable {T α β : Type}

/-! ### On plain lists -/

/-- What the sequences of rows may be when the algorithm is left by an exception.  Making a temporary has no effect if it throws; an interrupted assignment of
`v` to a row or temporary that was `u` has assigned the first `j` elements, and left some value in the next one. -/
def RAlg.Stopped (eq lt : T → T → Bool) (len : Nat → Option Nat) : RAlg T α → (Nat → Option SPos) → Rows T → (Nat → List (List T)) → Prop
  | .ret _, _, _, _ => False
  | .begin r c k, ps, R, S => ∃ e, len c = some e ∧ k.Stopped eq lt len (Seqs.setPos ps r ⟨c, false, 0⟩) R S
  | .fin r c k, ps, R, S => ∃ e, len c = some e ∧ k.Stopped eq lt len (Seqs.setPos ps r ⟨c, false, e⟩) R S
  | .rbegin r c k, ps, R, S => ∃ e, len c = some e ∧ k.Stopped eq lt len (Seqs.setPos ps r ⟨c, true, 0⟩) R S
  | .rfin r c k, ps, R, S => ∃ e, len c = some e ∧ k.Stopped eq lt len (Seqs.setPos ps r ⟨c, true, e⟩) R S
  | .copy r r' k, ps, R, S => ∃ p, ps r' = some p ∧ k.Stopped eq lt len (Seqs.setPos ps r p) R S
  | .base r r' k, ps, R, S => ∃ p, (ps r').bind (rowSeqs (T := T) len).baseOf = some p ∧ k.Stopped eq lt len (Seqs.setPos ps r p) R S
  | .add r n k, ps, R, S => ∃ p, (ps r).bind (fun p => (rowSeqs (T := T) len).moved p n) = some p ∧ k.Stopped eq lt len (Seqs.setPos ps r p) R S
  | .equal r r' k, ps, R, S => ∃ pp, Seqs.both (ps r) (ps r') = some pp ∧ (k (decide (pp.1.i = pp.2.i))).Stopped eq lt len ps R S
  | .less r r' k, ps, R, S => ∃ pp, Seqs.both (ps r) (ps r') = some pp ∧ (k (decide (pp.1.i < pp.2.i))).Stopped eq lt len ps R S
  | .diff r r' k, ps, R, S => ∃ pp, Seqs.both (ps r) (ps r') = some pp ∧ (k ((pp.1.i : Int) - (pp.2.i : Int))).Stopped eq lt len ps R S
  | .take t s k, ps, R, S => S = R.seqs ∨ ∃ v, R.value len ps s = some v ∧ k.Stopped eq lt len ps (R.setTmp t (some v)) S
  | .drop t k, ps, R, S => k.Stopped eq lt len ps (R.setTmp t none) S
  | .assign d s k, ps, R, S => ∃ v, R.value len ps s = some v ∧
      ((∃ u j junk R', R.value len ps d = some u ∧ j < u.length ∧ R.assign len ps (v.take j ++ junk :: u.drop (j + 1)) d = some R' ∧ S = R'.seqs) ∨
        ∃ R', R.assign len ps v d = some R' ∧ k.Stopped eq lt len ps R' S)
  | .look s k, ps, R, S => ∃ v, R.value len ps s = some v ∧ (k v).Stopped eq lt len ps R S
  | .rowEq s s' k, ps, R, S => ∃ v v', R.value len ps s = some v ∧ R.value len ps s' = some v' ∧ (k (rowEqual eq v v')).Stopped eq lt len ps R S
  | .rowLt s s' k, ps, R, S => ∃ v v', R.value len ps s = some v ∧ R.value len ps s' = some v' ∧ (k (rowLess lt v v')).Stopped eq lt len ps R S

/-! ### With the library -/

/-- What an algorithm did. -/
inductive RowOut (T α : Type) where
  | done (a : α) (w : World T)
  | threw (w : World T)
  | failed

/-- Go on with a value, if there is one. -/
def RowOut.ofOption (o : Option β) (k : β → RowOut T α) : RowOut T α :=
  match o with
  | some b => k b
  | none => .failed

/-- Go on, or handle the exception. -/
def RowOut.after (r : Result T) (k : World T → RowOut T α) (h : World T → RowOut T α) : RowOut T α :=
  match r with
  | .ok w => k w
  | .threw w => h w
  | .failed => .failed

/-- `value_type t(s);`, as `takeRow` but keeping the outcome of a constructor that throws. -/
def World.takeRowX (dbg : Bool) (dflt : T) (free : Nat → Nat) (alloc : Nat) (its : Nat → Option AnyIt) (w : World T) (t : Nat) : RowArg → Result T
  | .row r =>
    match (RowArg.row r).desc dbg free its w with
    | none => .failed
    | some d =>
      match (Ctor.convert d.extents.length d (StorageOrder.cOrder d.extents.length) alloc).run dbg dflt w.st with
      | .ok a s => .ok (w.set (free t) (some a) s)
      | .throw s => .threw { w with st := s }
      | .assertFail _ => .failed
      | .ub => .failed
  | .tmp t' => w.step dbg dflt (.construct (free t) (.copy (free t')))

/-- An assignment from any array, between two descriptors. -/
def World.assignDesc (dbg : Bool) (w : World T) (d s : Option Desc) : Result T :=
  match d, s with
  | some d, some s => w.mem (assignOp dbg false d s)
  | _, _ => .failed

/-- `d = s`, as `assignRow` but keeping the outcome of an assignment that throws. -/
def World.assignRowX (dbg : Bool) (dflt : T) (free : Nat → Nat) (its : Nat → Option AnyIt) (w : World T) : RowArg → RowArg → Result T
  | .tmp t, .tmp t' => w.step dbg dflt (.assign (free t) (free t'))
  | d, s => w.assignDesc dbg (d.desc dbg free its w) (s.desc dbg free its w)

/-- Destroy temporaries, in this order. -/
def World.unwind (dbg : Bool) (dflt : T) (free : Nat → Nat) : List Nat → World T → Option (World T)
  | [], w => some w
  | t :: ts, w => (Result.ok? (w.step dbg dflt (.destroy (free t)))).bind (fun w' => World.unwind dbg dflt free ts w')

/-- Leave the algorithm with an exception: destroy the temporaries `live`. -/
def World.leave (dbg : Bool) (dflt : T) (free : Nat → Nat) (live : List Nat) (w : World T) : RowOut T α :=
  RowOut.ofOption (w.unwind dbg dflt free live) (fun w' => .threw w')

/-- The algorithm with the library, as `RAlg.exec`; `live` are the temporaries that exist, most recent first. -/
def RAlg.execX (dbg : Bool) (dflt : T) (eq lt : T → T → Bool) (seqs : Nat → Option (Nat × List Sel)) (free : Nat → Nat) (alloc : Nat) :
    RAlg T α → (Nat → Option AnyIt) → List Nat → World T → RowOut T α
  | .ret a, _, _, w => .done a w
  | .begin r c k, its, live, w => .ofOption ((seqs c).bind (fun x => (w.lookup dbg x.1 x.2).bind (fun d => optRes d.begin)))
      (fun it => k.execX dbg dflt eq lt seqs free alloc (Seqs.setPos its r (.fwd it)) live w)
  | .fin r c k, its, live, w => .ofOption ((seqs c).bind (fun x => (w.lookup dbg x.1 x.2).bind (fun d => optRes d.end)))
      (fun it => k.execX dbg dflt eq lt seqs free alloc (Seqs.setPos its r (.fwd it)) live w)
  | .rbegin r c k, its, live, w => .ofOption ((seqs c).bind (fun x => (w.lookup dbg x.1 x.2).bind (fun d => optRes d.rbegin)))
      (fun it => k.execX dbg dflt eq lt seqs free alloc (Seqs.setPos its r (.bwd it)) live w)
  | .rfin r c k, its, live, w => .ofOption ((seqs c).bind (fun x => (w.lookup dbg x.1 x.2).bind (fun d => optRes d.rend)))
      (fun it => k.execX dbg dflt eq lt seqs free alloc (Seqs.setPos its r (.bwd it)) live w)
  | .copy r r' k, its, live, w => .ofOption (its r') (fun it => k.execX dbg dflt eq lt seqs free alloc (Seqs.setPos its r it) live w)
  | .base r r' k, its, live, w => .ofOption ((its r').bind (fun it => optRes it.base)) (fun it => k.execX dbg dflt eq lt seqs free alloc (Seqs.setPos its r it) live w)
  | .add r n k, its, live, w => .ofOption (its r) (fun it => k.execX dbg dflt eq lt seqs free alloc (Seqs.setPos its r (it.add n)) live w)
  | .equal r r' k, its, live, w => .ofOption ((its r).bind (fun i => (its r').bind (fun j => optRes (i.equal j)))) (fun b => (k b).execX dbg dflt eq lt seqs free alloc its live w)
  | .less r r' k, its, live, w => .ofOption ((its r).bind (fun i => (its r').bind (fun j => optRes (i.less j)))) (fun b => (k b).execX dbg dflt eq lt seqs free alloc its live w)
  | .diff r r' k, its, live, w => .ofOption ((its r).bind (fun i => (its r').bind (fun j => optRes (i.diff j)))) (fun n => (k n).execX dbg dflt eq lt seqs free alloc its live w)
  | .take t s k, its, live, w => .after (w.takeRowX dbg dflt free alloc its t s) (fun w' => k.execX dbg dflt eq lt seqs free alloc its (t :: live) w')
      (fun w' => w'.leave dbg dflt free live)
  | .drop t k, its, live, w => .after (w.step dbg dflt (.destroy (free t))) (fun w' => k.execX dbg dflt eq lt seqs free alloc its (live.erase t) w') (fun _ => .failed)
  | .assign d s k, its, live, w => .after (w.assignRowX dbg dflt free its d s) (fun w' => k.execX dbg dflt eq lt seqs free alloc its live w')
      (fun w' => w'.leave dbg dflt free live)
  | .look s k, its, live, w => .ofOption ((s.desc dbg free its w).bind (fun d => w.lookAt dbg d)) (fun v => (k v).execX dbg dflt eq lt seqs free alloc its live w)
  | .rowEq s s' k, its, live, w => .ofOption ((s.desc dbg free its w).bind (fun d => (s'.desc dbg free its w).bind (fun d' =>
      Res.val? (equalRef dbg eq w.st d.extents.length d d')))) (fun b => (k b).execX dbg dflt eq lt seqs free alloc its live w)
  | .rowLt s s' k, its, live, w => .ofOption ((s.desc dbg free its w).bind (fun d => (s'.desc dbg free its w).bind (fun d' =>
      Res.val? (lessRef dbg lt w.st d.extents.length d d')))) (fun b => (k b).execX dbg dflt eq lt seqs free alloc its live w)

/-! ### States after exceptions -/

/-- The live variables are those of `A` and hold what `A` says, each in storage of its own; at most `n` blocks of storage belong to no variable. -/
structure World.HoldsAll (w : World T) (A : AState T) (n : Nat) : Prop where
  live : ∀ x, w.objs x = none ↔ A x = none
  holds : ∀ x a abs, w.objs x = some a → A x = some abs → Holds w.st a abs
  apart : ∀ x y a b, w.objs x = some a → w.objs y = some b → x ≠ y → a.ref.data.blk ≠ b.ref.data.blk
  lost : ∃ L : List Nat, L.length ≤ n ∧ ∀ b, w.st.heap b ≠ none → b ∈ L ∨ ∃ x a, w.objs x = some a ∧ a.ref.data.blk = b

end MultiArray.Spec
