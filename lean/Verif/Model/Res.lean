/-
Outcomes of the pure (memory-independent) parts of the model.

Every function of the library that can fail a `BOOST_ASSERT` or run into undefined behaviour
returns a `Res`.  The two failures are distinct outcomes; whether assertions are compiled in
(`NDEBUG` / `BOOST_DISABLE_ASSERTS` not defined) is the argument `dbg` of the functions that
contain one.
-/
set_option autoImplicit false

namespace MultiArray

/-- Outcome of a computation: a value, a failed `BOOST_ASSERT`, or undefined behaviour.
(Not a definition of the library; `BOOST_ASSERT` is used throughout, e.g. base.hpp:135-136.) -/
inductive Res (α : Type) where
  | ok (a : α)
  | assertFail
  | ub
deriving DecidableEq, Repr

namespace Res

/-- Sequencing: the first failure wins (C++ statement sequencing). -/
def bind {α β : Type} (x : Res α) (f : α → Res β) : Res β :=
  match x with
  | ok a => f a
  | assertFail => assertFail
  | ub => ub

instance : Monad Res where
  pure := Res.ok
  bind := Res.bind

/-- `BOOST_ASSERT(c)` (boost/assert.hpp): a no-op when assertions are compiled out. -/
def assert (dbg : Bool) (c : Bool) : Res Unit :=
  if dbg && !c then assertFail else ok ()

/-- Reading entry `i` of a C array / `boost::array`; out of bounds is undefined behaviour. -/
def get {α : Type} (l : List α) (i : Nat) : Res α :=
  match l[i]? with
  | some a => ok a
  | none => ub

/-- Predicate: the outcome is a value. -/
def isOk {α : Type} : Res α → Bool
  | ok _ => true
  | _ => false

@[simp] theorem bind_ok {α β : Type} (a : α) (f : α → Res β) : (Res.ok a >>= f) = f a := rfl
@[simp] theorem bind_assertFail {α β : Type} (f : α → Res β) : (Res.assertFail >>= f) = .assertFail := rfl
@[simp] theorem bind_ub {α β : Type} (f : α → Res β) : (Res.ub >>= f) = .ub := rfl
@[simp] theorem pure_eq {α : Type} (a : α) : (pure a : Res α) = .ok a := rfl
@[simp] theorem assert_false (c : Bool) : assert false c = .ok () := rfl
@[simp] theorem assert_true (dbg : Bool) : assert dbg true = .ok () := by cases dbg <;> rfl
@[simp] theorem assert_true_false : assert true false = .assertFail := rfl

instance : LawfulMonad Res := LawfulMonad.mk'
  (id_map := by intro α x; cases x <;> rfl)
  (pure_bind := by intros; rfl)
  (bind_assoc := by intro α β γ x f g; cases x <;> rfl)

end Res

/-- `size_type(x)` for a signed `x` (types.hpp:28-29: `size_type` is `std::size_t`, 64 bits on the
platforms modelled): conversion modulo 2^64. -/
def toSizeT (x : Int) : Nat := (x % 2 ^ 64).toNat

/-- `std::accumulate(first,last,size_type(1),std::multiplies<size_type>())`, in ideal arithmetic
(multi_array_ref.hpp:397-398, view.hpp:243-244, subarray.hpp:165-166); `Machine.lean` treats the
64-bit version. -/
def product (l : List Nat) : Nat := l.foldl (· * ·) 1

/-- `copy_n(first,count,out)` (algorithm.hpp:52-61) filling a fresh array of `count` entries:
reading past the end of the source is undefined behaviour, extra source entries are ignored. -/
def copyN {α : Type} (src : List α) (count : Nat) : Res (List α) :=
  if count ≤ src.length then .ok (src.take count) else .ub

/-- `std::copy(src.begin(),src.end(),dst.begin())` onto an existing array: writing past the end
is undefined behaviour, entries after the copied prefix keep their values
(multi_array_ref.hpp:172, extent_gen.hpp:49, index_gen.hpp:49,57,66). -/
def copyPrefix {α : Type} (src dst : List α) : Res (List α) :=
  if src.length ≤ dst.length then .ok (src ++ dst.drop src.length) else .ub

end MultiArray
