import Verif.SpecHeld

/-
What a program does is completely determined by the abstract machine and by the exceptions that are due: which commands throw, what the state is
afterwards, which exceptions are still due, and how many blocks of storage are lost.  Nothing here models library code.
-/
set_option autoImplicit false

namespace MultiArray.Spec
open MultiArray
variable {T : Type}

/-- Of the next `n` allocations, element constructions and element assignments, the first that throws (counted from 0), and the value an interrupted element
assignment leaves.  `due` lists for the operations to come whether they throw. -/
def firstThrow : Nat → List (Option T) → Option (Nat × T)
  | 0, _ => none
  | _ + 1, [] => none
  | _ + 1, some junk :: _ => some (0, junk)
  | n + 1, none :: due => (firstThrow n due).map (fun r => (r.1 + 1, r.2))

/-- The number of allocations, element constructions and element assignments an initialisation performs: one allocation, one construction per element
and, for copies and conversions, one assignment per element. -/
def CInit.cost (A : AState T) : CInit → Nat
  | .default n _ => 1 + (List.replicate n 0).prod
  | .extents _ es _ _ => 1 + es.prod
  | .gen _ rs _ _ => 1 + (reqExtents rs).prod
  | .copy y =>
    match A y with
    | some a => 1 + a.extents.prod + a.extents.prod
    | none => 0
  | .convert y ss _ _ =>
    match A.part y ss with
    | some p => 1 + p.extents.prod + p.extents.prod
    | none => 0

/-- The same for `resize` to the extents `es`: a new array, and one assignment per element of the part both shapes share. -/
def AState.resizeCost (A : AState T) (x : Nat) (es : List Nat) : Nat :=
  match A x with
  | some a => 1 + es.prod + (List.zipWith min es a.extents).prod
  | none => 0

/-- The number of elements of the part `ss` of variable `x`. -/
def AState.count (A : AState T) (x : Nat) (ss : List Sel) : Nat :=
  match A.part x ss with
  | some p => p.extents.prod
  | none => 0

/-- The number of allocations, element constructions and element assignments a command performs. -/
def Cmd.cost (A : AState T) : Cmd T → Nat
  | .construct _ i => i.cost A
  | .on x (.resize rs) => A.resizeCost x (reqExtents rs)
  | .on x (.resizeList es) => A.resizeCost x es
  | .on _ (.write _ _) => 1
  | .on _ (.writeChain _ _) => 1
  | .on x (.assign input) => min (A.count x []) input.length
  | .on x (.forEach _) => A.count x []
  | .assign x y => if x = y then 0 else A.count x []
  | .assignPart x ss _ _ => A.count x ss
  | .copyArray x ss _ _ => A.count x ss
  | .write _ _ _ _ => 1
  | .forEach x ss _ => A.count x ss
  | _ => 0

/-- Copying part `q` of `y` to part `p` of `x` when the assignment number `j` throws: the elements before have been copied, element `j` holds `junk`. -/
def AState.copyStopped (A : AState T) (x : Nat) (p : APart) (y : Nat) (q : APart) (j : Nat) (junk : T) : Option (AState T) :=
  (AState.copy x p y q ((positions p.extents).take j) A).bind (fun A1 =>
    (positions p.extents)[j]?.bind (fun k => A1.put x (p.root (atPos p.bases k)) junk))

/-- The same for applying `f` to every element. -/
def AState.mapStopped (A : AState T) (x : Nat) (p : APart) (f : T → T) (j : Nat) (junk : T) : Option (AState T) :=
  (AState.map x p f ((positions p.extents).take j) A).bind (fun A1 =>
    (positions p.extents)[j]?.bind (fun k => A1.put x (p.root (atPos p.bases k)) junk))

/-- The state after a command whose operation number `j` threw, leaving `junk` if that was an element assignment: construction and `resize` have no effect;
otherwise the assignments before number `j` are done. -/
def AState.stopped (A : AState T) : Cmd T → Nat → T → Option (AState T)
  | .construct _ _, _, _ => some A
  | .on _ (.resize _), _, _ => some A
  | .on _ (.resizeList _), _, _ => some A
  | .on x (.write idx _), _, junk => A.put x idx junk
  | .on x (.writeChain idx _), _, junk => A.put x idx junk
  | .on x (.assign input), j, junk => (A x).map (fun a => A.set x (some { a with vals := input.take j ++ junk :: a.vals.drop (j + 1) }))
  | .on x (.forEach f), j, junk => (A.part x []).bind (fun p => A.mapStopped x p f j junk)
  | .assign x y, j, junk => (A.part x []).bind (fun p => (A.part y []).bind (fun q => A.copyStopped x p y q j junk))
  | .assignPart x ss y ss', j, junk => (A.part x ss).bind (fun p => (A.part y ss').bind (fun q => A.copyStopped x p y q j junk))
  | .copyArray x ss y ss', j, junk => (A.part x ss).bind (fun p => (A.part y ss').bind (fun q => A.copyStopped x p y q j junk))
  | .write x ss idx _, _, junk => (A.part x ss).bind (fun p => A.put x (p.root idx) junk)
  | .forEach x ss f, j, junk => (A.part x ss).bind (fun p => A.mapStopped x p f j junk)
  | _, _, _ => none

/-- The number of blocks of storage lost when operation number `j` of a command throws: a constructor whose allocation succeeded loses the block; `resize`
loses the new block if constructing its elements throws (but not if copying the old elements throws); no other command loses storage. -/
def Cmd.lost : Cmd T → Nat → Nat
  | .construct _ _, j => if 0 < j then 1 else 0
  | .on _ (.resize rs), j => if 0 < j ∧ j ≤ (reqExtents rs).prod then 1 else 0
  | .on _ (.resizeList es), j => if 0 < j ∧ j ≤ es.prod then 1 else 0
  | _, _ => 0

/-- The state of the abstract machine: the arrays, the registers, the exceptions that are due, and how many blocks have been lost. -/
structure AMach (T : Type) where
  vars : AState T
  regs : ARegs
  due : List (Option T)
  lost : Nat

/-- No variables, no registers. -/
def AMach.start (due : List (Option T)) : AMach T := ⟨fun _ => none, fun _ => none, due, 0⟩

/-- One command: what it returns (`none`: it throws), and the new state. -/
noncomputable def AMach.step (dflt : T) (eq lt : T → T → Bool) (M : AMach T) (h : HCmd T) : Option (Option (HObs T) × AMach T) :=
  match h.cmd M.vars M.regs with
  | some c =>
    match firstThrow (c.cost M.vars) M.due with
    | none => (M.vars.step dflt eq lt c).map (fun r => (some (.cmd r.1), ⟨r.2, M.regs.after c, M.due.drop (c.cost M.vars), M.lost⟩))
    | some (j, junk) => (M.vars.stopped c j junk).map (fun A' => (none, ⟨A', M.regs, M.due.drop (j + 1), M.lost + c.lost j⟩))
  | none => (M.vars.regStep M.regs h).map (fun r => (some r.1, { M with regs := r.2 }))

/-- The trace and the state after `n` commands (or fewer if the client stops). -/
noncomputable def HClient.predict (dflt : T) (eq lt : T → T → Bool) (k : HClient T) (due : List (Option T)) : Nat → Option (HTrace T × AMach T)
  | 0 => some ([], .start due)
  | n + 1 => (HClient.predict dflt eq lt k due n).bind (fun r =>
      match k r.1 with
      | none => some r
      | some h => (r.2.step dflt eq lt h).map (fun s => (r.1 ++ [(h, s.1)], s.2)))

/-- A command is legal in a state of the abstract machine. -/
def HCmd.LegalIn (M : AMach T) (h : HCmd T) : Prop := (∃ c, h.cmd M.vars M.regs = some c ∧ c.Legal M.vars) ∨ ∃ r, M.vars.regStep M.regs h = some r

/-- The client respects the preconditions in the one run that these exceptions lead to. -/
def HClient.LegalWith (dflt : T) (eq lt : T → T → Bool) (k : HClient T) (due : List (Option T)) : Prop :=
  ∀ n tr M h, k.predict dflt eq lt due n = some (tr, M) → k tr = some h → h.LegalIn M

/-- In that run, the client uses only views that fit and creates only arrays that fit (or tries to). -/
def HClient.FitsWith (dflt : T) (eq lt : T → T → Bool) (k : HClient T) (due : List (Option T)) : Prop :=
  ∀ n tr M h, k.predict dflt eq lt due n = some (tr, M) → k tr = some h →
    h.ViewsFit M.vars M.regs ∧ ∀ c, h.cmd M.vars M.regs = some c → c.ViewsFit M.vars ∧ NewFits dflt M.vars c

end MultiArray.Spec
