import Verif.SpecShare

/-
Element types as parameters: what it means that two programs, over two element types, are the same program.  Nothing here models library code.
-/
set_option autoImplicit false

namespace MultiArray.Spec
open MultiArray
variable {T U : Type}

/-- Two commands are the same except for the element values and functors in them: values correspond by `R`, functors send corresponding values to
corresponding values. -/
inductive SCmd.Corr (R : T → U → Prop) : SCmd T → SCmd U → Prop
  | buffer (x : Nat) {vs : List T} {us : List U} (h : List.Forall₂ R vs us) : Corr R (.buffer x vs) (.buffer x us)
  | construct (x : Nat) (i : CInit) : Corr R (.construct x i) (.construct x i)
  | refTo (x y first n : Nat) (es : List Nat) (so : StorageOrder) : Corr R (.refTo x y first n es so) (.refTo x y first n es so)
  | refGen (x y first n : Nat) (rs : List ExtentRange) (so : StorageOrder) : Corr R (.refGen x y first n rs so) (.refGen x y first n rs so)
  | refCopy (x y : Nat) : Corr R (.refCopy x y) (.refCopy x y)
  | hold (x y : Nat) (ss : List Sel) (xs : List IndexArg) : Corr R (.hold x y ss xs) (.hold x y ss xs)
  | holdCopy (x y : Nat) : Corr R (.holdCopy x y) (.holdCopy x y)
  | holdSub (x y : Nat) (i : Int) : Corr R (.holdSub x y i) (.holdSub x y i)
  | destroy (x : Nat) : Corr R (.destroy x) (.destroy x)
  | reindex (x : Nat) (bs : List Int) : Corr R (.reindex x bs) (.reindex x bs)
  | reshape (x : Nat) (es : List Nat) : Corr R (.reshape x es) (.reshape x es)
  | resize (x : Nat) (rs : List ExtentRange) : Corr R (.resize x rs) (.resize x rs)
  | fill (x : Nat) {vs : List T} {us : List U} (h : List.Forall₂ R vs us) : Corr R (.fill x vs) (.fill x us)
  | assign (x : Nat) (ss : List Sel) (y : Nat) (ss' : List Sel) : Corr R (.assign x ss y ss') (.assign x ss y ss')
  | copyArray (x : Nat) (ss : List Sel) (y : Nat) (ss' : List Sel) : Corr R (.copyArray x ss y ss') (.copyArray x ss y ss')
  | read (x : Nat) (ss : List Sel) (idx : List Int) : Corr R (.read x ss idx) (.read x ss idx)
  | write (x : Nat) (ss : List Sel) (idx : List Int) {v : T} {u : U} (h : R v u) : Corr R (.write x ss idx v) (.write x ss idx u)
  | forEach (x : Nat) (ss : List Sel) {f : T → T} {g : U → U} (h : ∀ v u, R v u → R (f v) (g u)) : Corr R (.forEach x ss f) (.forEach x ss g)
  | traverse (x : Nat) (ss : List Sel) : Corr R (.traverse x ss) (.traverse x ss)
  | equal (x : Nat) (ss : List Sel) (y : Nat) (ss' : List Sel) : Corr R (.equal x ss y ss') (.equal x ss y ss')
  | less (x : Nat) (ss : List Sel) (y : Nat) (ss' : List Sel) : Corr R (.less x ss y ss') (.less x ss y ss')
  | shape (x : Nat) (ss : List Sel) : Corr R (.shape x ss) (.shape x ss)

/-- Two observations are the same except that element values correspond by `R`. -/
inductive CObs.Corr (R : T → U → Prop) : CObs T → CObs U → Prop
  | unit : Corr R (.basic .unit) (.basic .unit)
  | value {v : T} {u : U} (h : R v u) : Corr R (.basic (.value v)) (.basic (.value u))
  | info (n s e : Nat) (es : List Nat) (bs ss : List Int) : Corr R (.basic (.info n s e es bs ss)) (.basic (.info n s e es bs ss))
  | bool (b : Bool) : Corr R (.bool b) (.bool b)
  | values {vs : List T} {us : List U} (h : List.Forall₂ R vs us) : Corr R (.values vs) (.values us)
  | shape (bs : List Int) (es : List Nat) : Corr R (.shape bs es) (.shape bs es)

/-- A program that chooses its next command by everything it has observed. -/
inductive Dialog (T : Type) : Type where
  | done
  | cmd (c : SCmd T) (k : CObs T → Dialog T)

/-- Two programs are the same: after corresponding observations they perform corresponding commands. -/
inductive Dialog.Corr (R : T → U → Prop) : Dialog T → Dialog U → Prop
  | done : Corr R .done .done
  | cmd {c : SCmd T} {c' : SCmd U} {k : CObs T → Dialog T} {k' : CObs U → Dialog U} (hc : c.Corr R c') (hk : ∀ o o', o.Corr R o' → Corr R (k o) (k' o')) :
      Corr R (.cmd c k) (.cmd c' k')

/-- Every command is legal where it is performed, in terms of the abstract state (C73). -/
def Dialog.Legal (dflt : T) (eq lt : T → T → Bool) : Dialog T → SState T → Prop
  | .done, _ => True
  | .cmd c k, A => A.Legal c ∧ ∀ o A', A.step dflt eq lt c = some (o, A') → (k o).Legal dflt eq lt A'

/-- The program with the library: what it observes, and where it ends; `none` if a command throws, fails an assertion or is undefined. -/
def Dialog.exec (dbg : Bool) (dflt : T) (eq lt : T → T → Bool) : Dialog T → SWorld T → Option (List (CObs T) × SWorld T)
  | .done, w => some ([], w)
  | .cmd c k, w => (w.exec dbg dflt eq lt c).bind (fun r => ((k r.1).exec dbg dflt eq lt r.2).map (fun r' => (r.1 :: r'.1, r'.2)))

/-- The values in an observation. -/
def CObs.elems : CObs T → List T
  | .basic (.value v) => [v]
  | .values vs => vs
  | _ => []

/-- All element values in a command satisfy `P`, and functors preserve `P`. -/
def SCmd.Within (P : T → Prop) : SCmd T → Prop
  | .buffer _ vs | .fill _ vs => ∀ v ∈ vs, P v
  | .write _ _ _ v => P v
  | .forEach _ _ f => ∀ v, P v → P (f v)
  | _ => True

/-- As long as all observed values satisfy `P`, so do all values in commands. -/
def Dialog.Within (P : T → Prop) : Dialog T → Prop
  | .done => True
  | .cmd c k => c.Within P ∧ ∀ o : CObs T, (∀ v ∈ o.elems, P v) → (k o).Within P

end MultiArray.Spec
