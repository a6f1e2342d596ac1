import Verif.SpecHeld

/-
Programs that differ only in the storage orders and allocators they ask for.  Nothing here models library code.
-/
set_option autoImplicit false

namespace MultiArray.Spec
open MultiArray
variable {T : Type}

/-- Storage orders for arrays of the same rank. -/
def SameRank (so so' : StorageOrder) : Prop := ∀ n, ValidOrder n so ↔ ValidOrder n so'

/-- The same initialisation, up to storage order and allocator. -/
inductive CInit.Alike : CInit → CInit → Prop
  | default (n al al' : Nat) : Alike (.default n al) (.default n al')
  | extents (n : Nat) (es : List Nat) (so so' : StorageOrder) (al al' : Nat) : SameRank so so' → Alike (.extents n es so al) (.extents n es so' al')
  | gen (n : Nat) (rs : List ExtentRange) (so so' : StorageOrder) (al al' : Nat) : SameRank so so' → Alike (.gen n rs so al) (.gen n rs so' al')
  | copy (y : Nat) : Alike (.copy y) (.copy y)
  | convert (y : Nat) (ss : List Sel) (so so' : StorageOrder) (al al' : Nat) : SameRank so so' → Alike (.convert y ss so al) (.convert y ss so' al')

/-- The command does not walk through an array in memory order: only `reshape` and `assign(first,last)` do. -/
def Cmd.MemoryFree : Cmd T → Prop
  | .on _ (.reshape _) => False
  | .on _ (.assign _) => False
  | _ => True

/-- The same command, up to storage order and allocator, and none that walks through memory. -/
inductive Cmd.Alike : Cmd T → Cmd T → Prop
  | construct (x : Nat) (i i' : CInit) : i.Alike i' → Alike (.construct x i) (.construct x i')
  | same (c : Cmd T) : c.MemoryFree → Alike c c

/-- The same command of a program that holds handles and iterators. -/
inductive HCmd.Alike : HCmd T → HCmd T → Prop
  | plain (c c' : Cmd T) : c.Alike c' → Alike (.plain c) (.plain c')
  | convert (x : Nat) (e : Ex) (so so' : StorageOrder) (al al' : Nat) : SameRank so so' →
      Alike (.part (.convert x e so al)) (.part (.convert x e so' al'))
  | same (h : HCmd T) : (∀ c, h ≠ .plain c) → Alike h h

/-- What was observed, without `strides()`. -/
def Obs.noStrides : Obs T → Obs T
  | .info n sz num sh bs _ => .info n sz num sh bs []
  | o => o

/-- What was observed, without `strides()`. -/
def CObs.noStrides : CObs T → CObs T
  | .basic o => .basic o.noStrides
  | o => o

/-- What was observed, without `strides()`. -/
def HObs.noStrides : HObs T → HObs T
  | .cmd o => .cmd o.noStrides
  | o => o

/-- The same commands up to storage order and allocator, and the same results and exceptions up to `strides()`. -/
def HTrace.Alike : HTrace T → HTrace T → Prop :=
  List.Forall₂ (fun p p' => p.1.Alike p'.1 ∧ p.2.map HObs.noStrides = p'.2.map HObs.noStrides)

/-- Two clients that do the same, up to storage orders and allocators: after the same commands with the same results, both stop or both go on with the
same command.  (So neither looks at `strides()`, walks through memory with `reshape` or `assign(first,last)`, or reads through `data()` or `origin()`.) -/
def HClient.Alike (k k' : HClient T) : Prop := ∀ tr tr', HTrace.Alike tr tr' →
  (k tr = none ∧ k' tr' = none) ∨ ∃ h h', k tr = some h ∧ k' tr' = some h' ∧ h.Alike h'

/-- The arrays in two memories have the same index bases and extents and hold the same elements at the same indices. -/
def SameArray (s : St T) (a : MArr) (s' : St T) (a' : MArr) : Prop :=
  a.ref.bases = a'.ref.bases ∧ a.ref.extents = a'.ref.extents ∧
  ∀ idx, InBox a.ref.bases a.ref.extents idx → ∃ v, s.get? (address a.ref.desc idx) = some v ∧ s'.get? (address a'.ref.desc idx) = some v

end MultiArray.Spec
