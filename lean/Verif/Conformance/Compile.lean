import Verif.Model.Const

/- The compile-time tests of the library (test/fail_*.cpp, test/fail_ref_*.cpp must be rejected; test/concept_checks.cpp must be accepted), against
the model of the declarations.  Tests of the model, not proofs of properties (C55 and C59 are the properties about const). -/
set_option autoImplicit false

namespace MultiArray.Conformance.Compile
open MultiArray.CxxConst

/-- `e = value` compiles, where `e` is `ops` applied to an expression of type `t`. -/
def assignable (ops : List Op) (t : Ty) : Bool :=
  match chain ops t with
  | some r => writable r
  | none => false

/-- `To x = e` compiles, where `e` is `ops` applied to an expression of type `t`: copy or converting construction, possibly through base classes. -/
def initialises (to : Ty) (ops : List Op) (t : Ty) : Bool :=
  [[], [Op.upcast], [Op.upcast, .upcast]].any fun up =>
    [Op.copy, .convert, .refCopy].any fun c => chain (ops ++ up ++ [c]) t == some to

/-- `typedef boost::multi_array<int,3> array;` `array a` / `const array& a`. -/
def array (const : Bool) : Ty := .handle .multiArray 3 const
/-- `typedef boost::multi_array_ref<int,3> array_ref;` -/
def arrayRef (const : Bool) : Ty := .handle .multiArrayRef 3 const
/-- `subarray<2>::type` (base.hpp:124, multi_array_ref.hpp:440) -/
def subarray2 : Ty := .handle .subArray 2 false
/-- `const_subarray<2>::type` (base.hpp:83) -/
def constSubarray2 : Ty := .handle (.constSubArray false) 2 false
/-- `array_view<3>::type` -/
def arrayView3 : Ty := .handle .view 3 false
/-- `const_array_view<3>::type` -/
def constArrayView3 : Ty := .handle (.constView false) 3 false

/-- One of the `fail_*` programs: its last statement, which must not compile, for a const or (to show that const is the reason) non-const array. -/
inductive Stmt where
  /-- `csma[0][0][0] = 5` (fail_cbracket.cpp, fail_ref_cbracket.cpp) -/
  | bracket
  /-- `*csma.data() = 0` (fail_cdata.cpp, fail_ref_cdata.cpp) -/
  | data
  /-- `csma(indices) = 5` (fail_cparen.cpp, fail_ref_cparen.cpp) -/
  | paren
  /-- `subarray<2>::type sba = sma_const[0]` (fail_csubarray2.cpp, fail_ref_csubarray2.cpp) -/
  | csubarray2
  /-- `const_subarray<2>::type sba = sma_const[0]; sba[j][k] = num++` (fail_csubarray3.cpp, fail_ref_csubarray3.cpp): the initialisation compiles,
  the assignment does not -/
  | csubarray3
  /-- `const_array_view<3>::type csma2 = csma[indices…]; csma2(elmt) = 5` (fail_cview.cpp, fail_ref_cview.cpp) -/
  | cview
  /-- `array_view<3>::type csma2 = csma[indices…]` (fail_cview2.cpp, fail_ref_cview2.cpp) -/
  | cview2
  /-- `const_array_view<3>::type csma2 = csma[indices…]; csma2[i][j][k] = 0` (fail_cview3.cpp, fail_ref_cview3.cpp) -/
  | cview3

/-- The statements other than the last one of the program compile, for an array of type `t`. -/
def Stmt.prelude (t : Ty) : Stmt → Bool
  | .csubarray3 => initialises constSubarray2 [.call .bracket] t
  | .cview => initialises constArrayView3 [.call (.slice 3)] t
  | .cview3 => initialises constArrayView3 [.call (.slice 3)] t
  | _ => true

/-- The last statement compiles. -/
def Stmt.compiles (t : Ty) : Stmt → Bool
  | .bracket => assignable [.call .bracket, .call .bracket, .call .bracket] t
  | .data => assignable [.call .data, .deref] t
  | .paren => assignable [.call .paren] t
  | .csubarray2 => initialises subarray2 [.call .bracket] t
  | .csubarray3 => assignable [.call .bracket, .call .bracket] constSubarray2
  | .cview => assignable [.call .paren] constArrayView3
  | .cview2 => initialises arrayView3 [.call (.slice 3)] t
  | .cview3 => assignable [.call .bracket, .call .bracket, .call .bracket] constArrayView3

/-- All of them. -/
def stmts : List Stmt := [.bracket, .data, .paren, .csubarray2, .csubarray3, .cview, .cview2, .cview3]

/-- The `fail_c*` programs are rejected because of their last statement. -/
example : stmts.all (fun s => s.prelude (array true) && !s.compiles (array true)) = true := by decide +kernel
/-- The `fail_ref_c*` programs as well. -/
example : stmts.all (fun s => s.prelude (arrayRef true) && !s.compiles (arrayRef true)) = true := by decide +kernel
/-- The same statements on a non-const array compile when they do not go through a const handle. -/
example : [Stmt.bracket, .data, .paren, .csubarray2, .cview2].all (fun s => s.compiles (array false) && s.compiles (arrayRef false)) = true := by
  decide +kernel

/-- fail_csubarray.cpp, fail_ref_csubarray.cpp: `const_subarray csba = sma[0]` compiles, `subarray sba = csba` does not. -/
example : initialises constSubarray2 [.call .bracket] (array false) = true
    ∧ initialises constSubarray2 [.call .bracket] (arrayRef false) = true
    ∧ initialises subarray2 [] constSubarray2 = false := by decide +kernel
/-- fail_citerator.cpp, fail_ref_citerator.cpp: no conversion from `const_iterator` to `iterator`, but one in the other direction. -/
example : initialises (.iter true 3) [] (.iter false 3) = false ∧ initialises (.iter false 3) [] (.iter true 3) = true := by decide +kernel
/-- fail_criterator.cpp, fail_ref_criterator.cpp. -/
example : initialises (.riter true 3) [] (.riter false 3) = false ∧ initialises (.riter false 3) [] (.riter true 3) = true := by decide +kernel

/-- The expressions used on a `const` object by `ConstMultiArrayConcept` (concept_checks.hpp:59-88) that reach elements: `a[id]`,
`a[index_gen]`, `a.begin()`, `a.end()`, `a.rbegin()`, `a.rend()`, `a.origin()`; and that dereferencing `const_iterator` gives a
`const_reference`. -/
def constConcept (c : Cls) (n : Nat) : Bool :=
  let a : Ty := .handle c n true
  (chain [.call .bracket] a == some (constReference n))
    && (chain [.call (.slice n)] a == some (.handle (.constView false) n false))
    && (chain [.call .begin_] a == some (.iter false n)) && (chain [.call .end_] a == some (.iter false n))
    && (chain [.call .rbegin] a == some (.riter false n)) && (chain [.call .rend] a == some (.riter false n))
    && (chain [.call .begin_, .deref] a == some (constReference n))
    && (chain [.call .origin] a).isSome

/-- The expressions of `MutableMultiArrayConcept` (concept_checks.hpp:120-180) on a non-const object. -/
def mutableConcept (c : Cls) (n : Nat) : Bool :=
  let a : Ty := .handle c n false
  (chain [.call .bracket] a == some (reference n))
    && (chain [.call (.slice n)] a == some (.handle .view n false))
    && (chain [.call .begin_] a == some (.iter true n)) && (chain [.call .end_] a == some (.iter true n))
    && (chain [.call .rbegin] a == some (.riter true n)) && (chain [.call .rend] a == some (.riter true n))
    && (chain [.call .begin_, .deref] a == some (reference n))
    && (chain [.call .origin] a == some (.ptr false)) && constConcept c n

/-- concept_checks.cpp: all seven classes model the const concept, the four mutable ones the mutable concept (and the const ones do not). -/
example : [Cls.multiArray, .multiArrayRef, .constMultiArrayRef false, .view, .constView false, .subArray, .constSubArray false].all
      (fun c => constConcept c 3) = true
    ∧ [Cls.multiArray, .multiArrayRef, .view, .subArray].all (fun c => mutableConcept c 3) = true
    ∧ [Cls.constMultiArrayRef false, .constView false, .constSubArray false].any (fun c => mutableConcept c 3) = false := by decide +kernel

end MultiArray.Conformance.Compile
