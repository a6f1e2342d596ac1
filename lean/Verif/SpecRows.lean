import Verif.SpecSeq
import Verif.SpecExchange

/-
Algorithms that work on the rows (first-dimension subarrays) of arrays, subarrays and views of two or more dimensions through their iterators, with
temporary row values (`value_type`, a `multi_array` of one dimension less), as sorting, rotating, removing or merging rows does; their meaning
on plain lists of rows, and their execution with the library's iterators, subarrays and arrays.  Nothing here models library code: `RAlg.exec` only
calls the model of the library functions.
-/
set_option autoImplicit false

namespace MultiArray.Spec
open MultiArray

/-- What can stand in an expression: `*r`, the row at iterator `r`, or a temporary. -/
inductive RowArg where
  | row (r : Nat)
  | tmp (t : Nat)

/-- An algorithm that computes an `α` with iterator variables `r` into sequences of rows `c` and row temporaries `t`.  What it does next may depend on
everything it has observed. -/
inductive RAlg (T α : Type) : Type where
  | ret (a : α)
  /-- `r = c.begin()` -/
  | begin (r c : Nat) (k : RAlg T α)
  /-- `r = c.end()` -/
  | fin (r c : Nat) (k : RAlg T α)
  /-- `r = c.rbegin()` -/
  | rbegin (r c : Nat) (k : RAlg T α)
  /-- `r = c.rend()` -/
  | rfin (r c : Nat) (k : RAlg T α)
  /-- `r = r'` -/
  | copy (r r' : Nat) (k : RAlg T α)
  /-- `r = r'.base()`, for a reverse iterator `r'` -/
  | base (r r' : Nat) (k : RAlg T α)
  /-- `r += n` (`++r` is `r += 1`, `--r` is `r += -1`) -/
  | add (r : Nat) (n : Int) (k : RAlg T α)
  /-- `r == r'` -/
  | equal (r r' : Nat) (k : Bool → RAlg T α)
  /-- `r < r'` -/
  | less (r r' : Nat) (k : Bool → RAlg T α)
  /-- `r - r'` -/
  | diff (r r' : Nat) (k : Int → RAlg T α)
  /-- `value_type t(s);` -/
  | take (t : Nat) (s : RowArg) (k : RAlg T α)
  /-- the end of the lifetime of `t` -/
  | drop (t : Nat) (k : RAlg T α)
  /-- `d = s` -/
  | assign (d s : RowArg) (k : RAlg T α)
  /-- look at all elements of `s`, by nested loops over its iterators -/
  | look (s : RowArg) (k : List T → RAlg T α)
  /-- `s == s'`, for two rows or two temporaries -/
  | rowEq (s s' : RowArg) (k : Bool → RAlg T α)
  /-- `s < s'`, for two rows or two temporaries -/
  | rowLt (s s' : RowArg) (k : Bool → RAlg T α)

variable {T α : Type}

/-! ### On plain lists -/

/-- The sequences of rows, each row as the list of its elements in index order; and the temporaries. -/
structure Rows (T : Type) where
  seqs : Nat → List (List T)
  tmps : Nat → Option (List T)

/-- The sequences of rows with the given (fixed) lengths. -/
def rowSeqs (len : Nat → Option Nat) : Seqs (List T) (Rows T) where
  len := len
  get R c i := (R.seqs c)[i]?
  put R c i v := { R with seqs := fun c' => if c' = c then (R.seqs c).set i v else R.seqs c' }

/-- Elementwise equality of two rows. -/
def rowEqual (eq : T → T → Bool) : List T → List T → Bool
  | [], [] => true
  | x :: xs, y :: ys => eq x y && rowEqual eq xs ys
  | _, _ => false

/-- Lexicographic comparison of two rows. -/
def rowLess (lt : T → T → Bool) : List T → List T → Bool
  | x :: xs, y :: ys => lt x y || (!lt y x && rowLess lt xs ys)
  | [], _ :: _ => true
  | _, _ => false

/-- The value of an argument. -/
def Rows.value (len : Nat → Option Nat) (ps : Nat → Option SPos) (R : Rows T) : RowArg → Option (List T)
  | .row r => (ps r).bind ((rowSeqs len).valueAt R)
  | .tmp t => R.tmps t

/-- Set a temporary. -/
def Rows.setTmp (R : Rows T) (t : Nat) (v : Option (List T)) : Rows T := { R with tmps := fun t' => if t' = t then v else R.tmps t' }

/-- Assign to an argument that has a value. -/
def Rows.assign (len : Nat → Option Nat) (ps : Nat → Option SPos) (R : Rows T) (v : List T) : RowArg → Option (Rows T)
  | .row r => (ps r).bind (fun p => ((rowSeqs (T := T) len).elem p).map (fun i => (rowSeqs len).put R p.seq i v))
  | .tmp t => (R.tmps t).map (fun _ => R.setTmp t (some v))

/-- Two rows or two temporaries. -/
def RowArg.SameKind : RowArg → RowArg → Bool
  | .row _, .row _ => true
  | .tmp _, .tmp _ => true
  | _, _ => false

/-- The meaning of an algorithm on plain lists of rows; `none` if it uses an iterator outside its sequence or uninitialised, compares iterators of different
sequences, uses a temporary that does not exist or creates one that does. -/
def RAlg.run (eq lt : T → T → Bool) (len : Nat → Option Nat) : RAlg T α → (Nat → Option SPos) → Rows T → Option (α × Rows T)
  | .ret a, _, R => some (a, R)
  | .begin r c k, ps, R => (len c).bind (fun _ => k.run eq lt len (Seqs.setPos ps r ⟨c, false, 0⟩) R)
  | .fin r c k, ps, R => (len c).bind (fun e => k.run eq lt len (Seqs.setPos ps r ⟨c, false, e⟩) R)
  | .rbegin r c k, ps, R => (len c).bind (fun _ => k.run eq lt len (Seqs.setPos ps r ⟨c, true, 0⟩) R)
  | .rfin r c k, ps, R => (len c).bind (fun e => k.run eq lt len (Seqs.setPos ps r ⟨c, true, e⟩) R)
  | .copy r r' k, ps, R => (ps r').bind (fun p => k.run eq lt len (Seqs.setPos ps r p) R)
  | .base r r' k, ps, R => ((ps r').bind (rowSeqs (T := T) len).baseOf).bind (fun p => k.run eq lt len (Seqs.setPos ps r p) R)
  | .add r n k, ps, R => ((ps r).bind (fun p => (rowSeqs (T := T) len).moved p n)).bind (fun p => k.run eq lt len (Seqs.setPos ps r p) R)
  | .equal r r' k, ps, R => (Seqs.both (ps r) (ps r')).bind (fun pp => (k (decide (pp.1.i = pp.2.i))).run eq lt len ps R)
  | .less r r' k, ps, R => (Seqs.both (ps r) (ps r')).bind (fun pp => (k (decide (pp.1.i < pp.2.i))).run eq lt len ps R)
  | .diff r r' k, ps, R => (Seqs.both (ps r) (ps r')).bind (fun pp => (k ((pp.1.i : Int) - (pp.2.i : Int))).run eq lt len ps R)
  | .take t s k, ps, R => (R.value len ps s).bind (fun v => if (R.tmps t).isNone then k.run eq lt len ps (R.setTmp t (some v)) else none)
  | .drop t k, ps, R => (R.tmps t).bind (fun _ => k.run eq lt len ps (R.setTmp t none))
  | .assign d s k, ps, R => (R.value len ps s).bind (fun v => (R.assign len ps v d).bind (fun R' => k.run eq lt len ps R'))
  | .look s k, ps, R => (R.value len ps s).bind (fun v => (k v).run eq lt len ps R)
  | .rowEq s s' k, ps, R => (R.value len ps s).bind (fun v => (R.value len ps s').bind (fun v' =>
      if s.SameKind s' then (k (rowEqual eq v v')).run eq lt len ps R else none))
  | .rowLt s s' k, ps, R => (R.value len ps s).bind (fun v => (R.value len ps s').bind (fun v' =>
      if s.SameKind s' then (k (rowLess lt v v')).run eq lt len ps R else none))

/-! ### With the library -/

/-- A value, if there is one. -/
def optRes {β : Type} (r : Res β) : Option β := Res.val? r

/-- The descriptor of an argument: `*r`, or the temporary, which is variable `free t`. -/
def RowArg.desc (dbg : Bool) (free : Nat → Nat) (its : Nat → Option AnyIt) (w : World T) : RowArg → Option Desc
  | .row r => (its r).bind (fun it => optRes (it.deref dbg))
  | .tmp t => (w.objs (free t)).map (fun a => a.ref.desc)

/-- `value_type t(s);`: for a row, the constructor of `multi_array` from a subarray, with the default storage order; for a temporary, the copy constructor. -/
def World.takeRow (dbg : Bool) (dflt : T) (free : Nat → Nat) (alloc : Nat) (its : Nat → Option AnyIt) (w : World T) (t : Nat) : RowArg → Option (World T)
  | .row r => ((RowArg.row r).desc dbg free its w).bind (fun d =>
      match (Ctor.convert d.extents.length d (StorageOrder.cOrder d.extents.length) alloc).run dbg dflt w.st with
      | .ok a s => some (w.set (free t) (some a) s)
      | _ => none)
  | .tmp t' => Result.ok? (w.step dbg dflt (.construct (free t) (.copy (free t'))))

/-- `d = s`: between temporaries, the copy assignment of `multi_array`; otherwise the assignment from any array. -/
def World.assignRow (dbg : Bool) (dflt : T) (free : Nat → Nat) (its : Nat → Option AnyIt) (w : World T) : RowArg → RowArg → Option (World T)
  | .tmp t, .tmp t' => Result.ok? (w.step dbg dflt (.assign (free t) (free t')))
  | d, s => (d.desc dbg free its w).bind (fun d => (s.desc dbg free its w).bind (fun s => Result.ok? (w.mem (assignOp dbg false d s))))

/-- All elements of an array, subarray or view, by nested loops over its iterators. -/
def World.lookAt (dbg : Bool) (w : World T) (d : Desc) : Option (List T) :=
  (Res.val? (nestedLoop dbg d.extents.sum d.extents.length d)).bind (fun ps => ps.bind (fun ps => ps.mapM (fun p => w.st.get? p)))

/-- The algorithm with the library: sequence `c` is the expression `seqs c` (a variable and a path), temporary `t` is the variable `free t`.  `none` if anything throws, fails an
assertion or is undefined. -/
def RAlg.exec (dbg : Bool) (dflt : T) (eq lt : T → T → Bool) (seqs : Nat → Option (Nat × List Sel)) (free : Nat → Nat) (alloc : Nat) :
    RAlg T α → (Nat → Option AnyIt) → World T → Option (α × World T)
  | .ret a, _, w => some (a, w)
  | .begin r c k, its, w => (seqs c).bind (fun x => (w.lookup dbg x.1 x.2).bind (fun d => (optRes d.begin).bind (fun it =>
      k.exec dbg dflt eq lt seqs free alloc (Seqs.setPos its r (.fwd it)) w)))
  | .fin r c k, its, w => (seqs c).bind (fun x => (w.lookup dbg x.1 x.2).bind (fun d => (optRes d.end).bind (fun it =>
      k.exec dbg dflt eq lt seqs free alloc (Seqs.setPos its r (.fwd it)) w)))
  | .rbegin r c k, its, w => (seqs c).bind (fun x => (w.lookup dbg x.1 x.2).bind (fun d => (optRes d.rbegin).bind (fun it =>
      k.exec dbg dflt eq lt seqs free alloc (Seqs.setPos its r (.bwd it)) w)))
  | .rfin r c k, its, w => (seqs c).bind (fun x => (w.lookup dbg x.1 x.2).bind (fun d => (optRes d.rend).bind (fun it =>
      k.exec dbg dflt eq lt seqs free alloc (Seqs.setPos its r (.bwd it)) w)))
  | .copy r r' k, its, w => (its r').bind (fun it => k.exec dbg dflt eq lt seqs free alloc (Seqs.setPos its r it) w)
  | .base r r' k, its, w => (its r').bind (fun it => (optRes it.base).bind (fun it' => k.exec dbg dflt eq lt seqs free alloc (Seqs.setPos its r it') w))
  | .add r n k, its, w => (its r).bind (fun it => k.exec dbg dflt eq lt seqs free alloc (Seqs.setPos its r (it.add n)) w)
  | .equal r r' k, its, w => (its r).bind (fun i => (its r').bind (fun j => (optRes (i.equal j)).bind (fun b => (k b).exec dbg dflt eq lt seqs free alloc its w)))
  | .less r r' k, its, w => (its r).bind (fun i => (its r').bind (fun j => (optRes (i.less j)).bind (fun b => (k b).exec dbg dflt eq lt seqs free alloc its w)))
  | .diff r r' k, its, w => (its r).bind (fun i => (its r').bind (fun j => (optRes (i.diff j)).bind (fun n => (k n).exec dbg dflt eq lt seqs free alloc its w)))
  | .take t s k, its, w => (w.takeRow dbg dflt free alloc its t s).bind (fun w' => k.exec dbg dflt eq lt seqs free alloc its w')
  | .drop t k, its, w => (Result.ok? (w.step dbg dflt (.destroy (free t)))).bind (fun w' => k.exec dbg dflt eq lt seqs free alloc its w')
  | .assign d s k, its, w => (w.assignRow dbg dflt free its d s).bind (fun w' => k.exec dbg dflt eq lt seqs free alloc its w')
  | .look s k, its, w => (s.desc dbg free its w).bind (fun d => (w.lookAt dbg d).bind (fun v => (k v).exec dbg dflt eq lt seqs free alloc its w))
  | .rowEq s s' k, its, w => (s.desc dbg free its w).bind (fun d => (s'.desc dbg free its w).bind (fun d' =>
      (Res.val? (equalRef dbg eq w.st d.extents.length d d')).bind (fun b => (k b).exec dbg dflt eq lt seqs free alloc its w)))
  | .rowLt s s' k, its, w => (s.desc dbg free its w).bind (fun d => (s'.desc dbg free its w).bind (fun d' =>
      (Res.val? (lessRef dbg lt w.st d.extents.length d d')).bind (fun b => (k b).exec dbg dflt eq lt seqs free alloc its w)))

/-! ### Which lists the sequences of a program are -/

/-- The sequences `seqs` of a program in the abstract state `A`: legal expressions, all with rows of the same extents `es` (one or more dimensions), without common elements;
the variables for temporaries do not exist yet. -/
structure RowSetup (A : AState T) (seqs : Nat → Option (Nat × List Sel)) (free : Nat → Nat) (es : List Nat) : Prop where
  dims : es ≠ []
  part : ∀ c x ss, seqs c = some (x, ss) → ∃ p b bs e, A.Part x ss p ∧ p.bases = b :: bs ∧ p.extents = e :: es
  apart : ∀ c c' x ss ss' p p', c ≠ c' → seqs c = some (x, ss) → seqs c' = some (x, ss') → A.Part x ss p → A.Part x ss' p' → p.Disjoint p'
  fresh : ∀ t, A (free t) = none
  inj : ∀ t t', free t = free t' → t = t'

/-- The number of rows of each sequence. -/
def AState.rowCount (A : AState T) (seqs : Nat → Option (Nat × List Sel)) (c : Nat) : Option Nat :=
  (seqs c).bind (fun x => (A.part x.1 x.2).map (fun p => p.extents.headD 0))

/-- Row number `i` of part `p`. -/
def APart.rowPart (p : APart) (i : Nat) : APart := p.sel (.at (p.bases.headD 0 + (i : Int)))

/-- Sequence `c` of the program holds the rows `R.seqs c`. -/
def AState.HoldsRows (A : AState T) (seqs : Nat → Option (Nat × List Sel)) (R : Rows T) : Prop :=
  ∀ c x ss p, seqs c = some (x, ss) → A.part x ss = some p →
    (R.seqs c).length = p.extents.headD 0 ∧ ∀ i v, (R.seqs c)[i]? = some v → A.values x (p.rowPart i) = some v

/-- From `A` to `A'`, variables other than temporaries keep their shapes, and elements that belong to none of the sequences keep their values. -/
def AState.OnlyRows (A A' : AState T) (seqs : Nat → Option (Nat × List Sel)) (free : Nat → Nat) : Prop :=
  (∀ z, (∀ t, z ≠ free t) → A'.header z = A.header z) ∧
  ∀ z idx, A.InRange z idx → (∀ c ss p, seqs c = some (z, ss) → A.part z ss = some p → ∀ i, InBox p.bases p.extents i → p.root i ≠ idx) →
    A'.get z idx = A.get z idx

/-! ### An algorithm as an example -/

/-- The inner loop of insertion sort: the hole is at iterator 2, iterator 0 is the first row, temporary 0 is the row to insert:
`while (j != first && comp(val, *(j-1))) { *j = *(j-1); --j; } *j = val;`, at most `fuel` rounds. -/
def insertLoop (comp : List T → List T → Bool) : (fuel : Nat) → RAlg T Bool → RAlg T Bool
  | 0, _ => .ret false
  | fuel + 1, k => .equal 2 0 (fun b => if b then .assign (.row 2) (.tmp 0) k else
      .copy 3 2 (.add 3 (-1) (.look (.tmp 0) (fun val => .look (.row 3) (fun prev =>
        if comp val prev then .assign (.row 2) (.row 3) (.copy 2 3 (insertLoop comp fuel k)) else .assign (.row 2) (.tmp 0) k)))))

/-- Insertion sort from iterator 1 on, at most `fuel` rows and `inner` rounds of the inner loop; the result says whether this was enough:
`for (; i != last; ++i) { value_type val(*i); j = i; <inner loop> }`. -/
def sortLoop (comp : List T → List T → Bool) (inner : Nat) : (fuel : Nat) → RAlg T Bool
  | 0 => .ret false
  | fuel + 1 => .equal 1 4 (fun b => if b then .ret true else
      .take 0 (.row 1) (.copy 2 1 (insertLoop comp inner (.drop 0 (.add 1 1 (sortLoop comp inner fuel))))))

/-- Insertion sort of the rows of sequence 0 by the client's comparison `comp` of rows. -/
def insertionSort (comp : List T → List T → Bool) (fuel : Nat) : RAlg T Bool :=
  .begin 0 0 (.begin 1 0 (.fin 4 0 (sortLoop comp fuel fuel)))

end MultiArray.Spec
