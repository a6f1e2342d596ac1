import Verif.SpecMem

/-
Algorithms that work on one-dimensional arrays, rows and views through their iterators (as those of `<algorithm>` do), their meaning on plain
sequences, and their execution with the library's iterators.  Nothing here models library code: `IAlg.exec` only calls the model of the
iterator functions.
-/
set_option autoImplicit false

namespace MultiArray.Spec
open MultiArray

/-- An algorithm that computes an `α` with iterator variables `r` into sequences `c`, reading and writing elements of type `T`.  What it does next may
depend on everything it has observed. -/
inductive IAlg (T α : Type) : Type where
  | ret (a : α)
  /-- `r = c.begin()` -/
  | begin (r c : Nat) (k : IAlg T α)
  /-- `r = c.end()` -/
  | fin (r c : Nat) (k : IAlg T α)
  /-- `r = c.rbegin()` -/
  | rbegin (r c : Nat) (k : IAlg T α)
  /-- `r = c.rend()` -/
  | rfin (r c : Nat) (k : IAlg T α)
  /-- `r = r'` -/
  | copy (r r' : Nat) (k : IAlg T α)
  /-- `r = r'.base()`, for a reverse iterator `r'` -/
  | base (r r' : Nat) (k : IAlg T α)
  /-- `++r` -/
  | inc (r : Nat) (k : IAlg T α)
  /-- `--r` -/
  | dec (r : Nat) (k : IAlg T α)
  /-- `r += n` -/
  | add (r : Nat) (n : Int) (k : IAlg T α)
  /-- `r == r'` -/
  | equal (r r' : Nat) (k : Bool → IAlg T α)
  /-- `r < r'` -/
  | less (r r' : Nat) (k : Bool → IAlg T α)
  /-- `r - r'` -/
  | diff (r r' : Nat) (k : Int → IAlg T α)
  /-- `*r` -/
  | read (r : Nat) (k : T → IAlg T α)
  /-- `r[n]` -/
  | readAt (r : Nat) (n : Int) (k : T → IAlg T α)
  /-- `*r = v` -/
  | write (r : Nat) (v : T) (k : IAlg T α)

variable {T α S : Type}

/-! ### On plain sequences -/

/-- A position in a sequence: element number `i`, counted from the back if `rev`; `i` = the length is the end. -/
structure SPos where
  seq : Nat
  rev : Bool
  i : Nat

/-- Sequences: `len c` is the length of sequence `c` if it exists, and a state `S` holds their elements, `get`, `put`. -/
structure Seqs (T S : Type) where
  len : Nat → Option Nat
  get : S → (seq i : Nat) → Option T
  put : S → (seq i : Nat) → T → S

/-- How an algorithm ends. -/
inductive SRes (T S α : Type) where
  | done (a : α) (st : S) (sched : List (Option T))
  | threw (st : S) (sched : List (Option T))
  /-- it used an iterator outside its sequence, or uninitialised, or compared iterators of different sequences -/
  | illegal

namespace Seqs

/-- Set a variable. -/
def setPos {P : Type} (regs : Nat → Option P) (r : Nat) (p : P) : Nat → Option P := fun x => if x = r then some p else regs x

/-- Moving a position by `n`; it must stay inside the sequence or at its end. -/
def moved (q : Seqs T S) (p : SPos) (n : Int) : Option SPos :=
  (q.len p.seq).bind (fun e => if 0 ≤ (p.i : Int) + n ∧ (p.i : Int) + n ≤ (e : Int) then some { p with i := ((p.i : Int) + n).toNat } else none)

/-- The number, counted from the front, of the element at a position; the end has no element. -/
def elem (q : Seqs T S) (p : SPos) : Option Nat :=
  (q.len p.seq).bind (fun e => if p.i < e then some (if p.rev then e - 1 - p.i else p.i) else none)

/-- Position `p.base()`: counted from the front, it is behind the element at `p`. -/
def baseOf (q : Seqs T S) (p : SPos) : Option SPos :=
  (q.len p.seq).bind (fun e => if p.rev then some ⟨p.seq, false, e - p.i⟩ else none)

/-- Both positions, if they are of the same kind and in the same sequence. -/
def both (p p' : Option SPos) : Option (SPos × SPos) :=
  p.bind (fun p => p'.bind (fun p' => if p.seq = p'.seq ∧ p.rev = p'.rev then some (p, p') else none))

/-- The value at a position. -/
def valueAt (q : Seqs T S) (st : S) (p : SPos) : Option T := (q.elem p).bind (q.get st p.seq)

end Seqs

/-- Continue if defined. -/
def SRes.ofOption {β : Type} (o : Option β) (k : β → SRes T S α) : SRes T S α :=
  match o with
  | some b => k b
  | none => .illegal

/-- The meaning of an algorithm on plain sequences.  `sched` says for each coming element assignment whether it throws, as in the memory model: an
assignment that throws leaves some value behind. -/
def IAlg.run (q : Seqs T S) : IAlg T α → (Nat → Option SPos) → S → List (Option T) → SRes T S α
  | .ret a, _, st, sc => .done a st sc
  | .begin r c k, ps, st, sc => .ofOption (q.len c) (fun _ => k.run q (Seqs.setPos ps r ⟨c, false, 0⟩) st sc)
  | .fin r c k, ps, st, sc => .ofOption (q.len c) (fun e => k.run q (Seqs.setPos ps r ⟨c, false, e⟩) st sc)
  | .rbegin r c k, ps, st, sc => .ofOption (q.len c) (fun _ => k.run q (Seqs.setPos ps r ⟨c, true, 0⟩) st sc)
  | .rfin r c k, ps, st, sc => .ofOption (q.len c) (fun e => k.run q (Seqs.setPos ps r ⟨c, true, e⟩) st sc)
  | .copy r r' k, ps, st, sc => .ofOption (ps r') (fun p => k.run q (Seqs.setPos ps r p) st sc)
  | .base r r' k, ps, st, sc => .ofOption ((ps r').bind q.baseOf) (fun p => k.run q (Seqs.setPos ps r p) st sc)
  | .inc r k, ps, st, sc => .ofOption ((ps r).bind (fun p => q.moved p 1)) (fun p => k.run q (Seqs.setPos ps r p) st sc)
  | .dec r k, ps, st, sc => .ofOption ((ps r).bind (fun p => q.moved p (-1))) (fun p => k.run q (Seqs.setPos ps r p) st sc)
  | .add r n k, ps, st, sc => .ofOption ((ps r).bind (fun p => q.moved p n)) (fun p => k.run q (Seqs.setPos ps r p) st sc)
  | .equal r r' k, ps, st, sc => .ofOption (Seqs.both (ps r) (ps r')) (fun pp => (k (decide (pp.1.i = pp.2.i))).run q ps st sc)
  | .less r r' k, ps, st, sc => .ofOption (Seqs.both (ps r) (ps r')) (fun pp => (k (decide (pp.1.i < pp.2.i))).run q ps st sc)
  | .diff r r' k, ps, st, sc => .ofOption (Seqs.both (ps r) (ps r')) (fun pp => (k ((pp.1.i : Int) - (pp.2.i : Int))).run q ps st sc)
  | .read r k, ps, st, sc => .ofOption ((ps r).bind (q.valueAt st)) (fun v => (k v).run q ps st sc)
  | .readAt r n k, ps, st, sc =>
    .ofOption ((ps r).bind (fun p => (q.moved p n).bind (q.valueAt st))) (fun v => (k v).run q ps st sc)
  | .write r v k, ps, st, sc =>
    .ofOption ((ps r).bind (fun p => (q.elem p).map (fun i => (p.seq, i)))) (fun ci =>
      match sc with
      | [] => k.run q ps (q.put st ci.1 ci.2 v) []
      | none :: sc => k.run q ps (q.put st ci.1 ci.2 v) sc
      | some junk :: sc => .threw (q.put st ci.1 ci.2 junk) sc)

/-! ### With the library's iterators -/

/-- An iterator object: `iterator` or `reverse_iterator`. -/
inductive AnyIt where
  | fwd (it : It)
  | bwd (it : RIt)

namespace AnyIt

/-- `++r` -/
def inc : AnyIt → AnyIt
  | .fwd i => .fwd i.increment
  | .bwd i => .bwd i.increment
/-- `--r` -/
def dec : AnyIt → AnyIt
  | .fwd i => .fwd i.decrement
  | .bwd i => .bwd i.decrement
/-- `r += n` -/
def add (n : Int) : AnyIt → AnyIt
  | .fwd i => .fwd (i.advance n)
  | .bwd i => .bwd (i.advance n)
/-- `*r` -/
def deref (dbg : Bool) : AnyIt → Res Desc
  | .fwd i => i.deref dbg
  | .bwd i => i.deref dbg
/-- `r[n]` -/
def index (dbg : Bool) (n : Int) : AnyIt → Res Desc
  | .fwd i => i.index dbg n
  | .bwd i => i.index dbg n
/-- `r == r'` (ill-typed, here undefined, for iterators of different kinds) -/
def equal : AnyIt → AnyIt → Res Bool
  | .fwd i, .fwd j => .ok (i.equal j)
  | .bwd i, .bwd j => .ok (i.equal j)
  | _, _ => .ub
/-- `r < r'` -/
def less : AnyIt → AnyIt → Res Bool
  | .fwd i, .fwd j => .ok (i.lt j)
  | .bwd i, .bwd j => .ok (i.lt j)
  | _, _ => .ub
/-- `r - r'` -/
def diff : AnyIt → AnyIt → Res Int
  | .fwd i, .fwd j => .ok (i.sub j)
  | .bwd i, .bwd j => .ok (i.sub j)
  | _, _ => .ub
/-- `r.base()` -/
def base : AnyIt → Res AnyIt
  | .fwd _ => .ub
  | .bwd i => .ok (.fwd i.base)

end AnyIt

/-- A value that must exist. -/
def Res.ofOption {β : Type} : Option β → Res β
  | some b => .ok b
  | none => .ub

/-- The algorithm with the iterators of the arrays, subarrays or views `ds`. -/
def IAlg.exec (dbg : Bool) (ds : Nat → Option Desc) : IAlg T α → (Nat → Option AnyIt) → Exec T α
  | .ret a, _ => pure a
  | .begin r c k, its => do
    let it ← Exec.lift (do (← Res.ofOption (ds c)).begin)
    k.exec dbg ds (Seqs.setPos its r (.fwd it))
  | .fin r c k, its => do
    let it ← Exec.lift (do (← Res.ofOption (ds c)).end)
    k.exec dbg ds (Seqs.setPos its r (.fwd it))
  | .rbegin r c k, its => do
    let it ← Exec.lift (do (← Res.ofOption (ds c)).rbegin)
    k.exec dbg ds (Seqs.setPos its r (.bwd it))
  | .rfin r c k, its => do
    let it ← Exec.lift (do (← Res.ofOption (ds c)).rend)
    k.exec dbg ds (Seqs.setPos its r (.bwd it))
  | .copy r r' k, its => do
    let it ← Exec.lift (Res.ofOption (its r'))
    k.exec dbg ds (Seqs.setPos its r it)
  | .base r r' k, its => do
    let it ← Exec.lift (do (← Res.ofOption (its r')).base)
    k.exec dbg ds (Seqs.setPos its r it)
  | .inc r k, its => do
    let it ← Exec.lift (Res.ofOption (its r))
    k.exec dbg ds (Seqs.setPos its r it.inc)
  | .dec r k, its => do
    let it ← Exec.lift (Res.ofOption (its r))
    k.exec dbg ds (Seqs.setPos its r it.dec)
  | .add r n k, its => do
    let it ← Exec.lift (Res.ofOption (its r))
    k.exec dbg ds (Seqs.setPos its r (it.add n))
  | .equal r r' k, its => do
    let b ← Exec.lift (do (← Res.ofOption (its r)).equal (← Res.ofOption (its r')))
    (k b).exec dbg ds its
  | .less r r' k, its => do
    let b ← Exec.lift (do (← Res.ofOption (its r)).less (← Res.ofOption (its r')))
    (k b).exec dbg ds its
  | .diff r r' k, its => do
    let n ← Exec.lift (do (← Res.ofOption (its r)).diff (← Res.ofOption (its r')))
    (k n).exec dbg ds its
  | .read r k, its => do
    let e ← Exec.lift (do (← Res.ofOption (its r)).deref dbg)
    let v ← load e.base
    (k v).exec dbg ds its
  | .readAt r n k, its => do
    let e ← Exec.lift (do (← Res.ofOption (its r)).index dbg n)
    let v ← load e.base
    (k v).exec dbg ds its
  | .write r v k, its => do
    let e ← Exec.lift (do (← Res.ofOption (its r)).deref dbg)
    assignCell e.base v
    k.exec dbg ds its

/-! ### Two kinds of sequences -/

/-- A single sequence: a list. -/
def oneList (e : Nat) : Seqs T (List T) where
  len c := if c = 0 then some e else none
  get st _ i := st[i]?
  put st _ i v := st.set i v

/-- Any number of sequences of named places `places c`, which may share places; the state gives the value at each place. -/
def placeSeqs {P : Type} [DecidableEq P] (places : Nat → Option (List P)) : Seqs T (P → Option T) where
  len c := (places c).map List.length
  get st c i := ((places c).bind (·[i]?)).bind st
  put st c i v := match (places c).bind (·[i]?) with
    | some p => fun p' => if p' = p then some v else st p'
    | none => st

/-- The addresses of the elements of a one-dimensional array, subarray or view, in order. -/
def elementPlaces (d : Desc) : List Ptr := (List.range (d.extents.headD 0)).map (fun (k : Nat) => address d (atPos d.bases [k]))

/-! ### An algorithm as an example -/

/-- The loop of `std::reverse(first, last)` with iterator variables 0 and 1, at most `fuel` rounds (the result says whether they sufficed):
`while (first != last && first != --last) { iter_swap(first, last); ++first; }`. -/
def reverseLoop : (fuel : Nat) → IAlg T Bool
  | 0 => .ret false
  | fuel + 1 => .equal 0 1 (fun b => if b then .ret true else .dec 1 (.equal 0 1 (fun b => if b then .ret true else
      .read 0 (fun v => .read 1 (fun w => .write 0 w (.write 1 v (.inc 0 (reverseLoop fuel))))))))

/-- `std::reverse(c.begin(), c.end())` for sequence 0. -/
def stdReverse (fuel : Nat) : IAlg T Bool := .begin 0 0 (.fin 1 0 (reverseLoop fuel))

end MultiArray.Spec
