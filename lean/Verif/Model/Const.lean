/- The const-ness of the public interface: classes, member overloads, result types (C55, C59).

This is a model of the *declarations* (types), not of run-time values: which member function a call selects for a const or non-const
object, and what type the result has.  `T` is the element type; dimensions are a natural number; everything else about the types is kept. -/
set_option autoImplicit false

namespace MultiArray.CxxConst

/-- The class templates through which elements are reached.  `mp` tells whether the `TPtr` parameter is `T*` (`true`) or the default
`const T*` (`false`): multi_array_ref.hpp:43, base.hpp:83, base.hpp:90.
multi_array.hpp:119-122; multi_array_ref.hpp:44, 412; subarray.hpp:39, 202; view.hpp:41, 264. -/
inductive Cls where
  | multiArray
  | multiArrayRef
  | constMultiArrayRef (mp : Bool)
  | subArray
  | constSubArray (mp : Bool)
  | view
  | constView (mp : Bool)
deriving DecidableEq, Repr

/-- Expression types.  `handle c n k`: object of class `c` with `n` dimensions, const-qualified iff `k`.
`iter m n`: `iterator` (`m = true`: `TPtr = T*`, `Reference = reference`) or `const_iterator` (`m = false`), base.hpp:279-286;
`riter m n`: their `boost::reverse_iterator`, base.hpp:288-289.  `elem k`: an element lvalue `T&` (`k = false`) or `const T&`;
`ptr k`: `T*` or `const T*`. -/
inductive Ty where
  | handle (c : Cls) (n : Nat) (k : Bool)
  | iter (m : Bool) (n : Nat)
  | riter (m : Bool) (n : Nat)
  | elem (k : Bool)
  | ptr (k : Bool)
deriving DecidableEq, Repr

/-- `reference` of an `n`-dimensional class: `sub_array<T,n-1>`, or `T&` for one dimension (base.hpp:124, 164, 190-199, 250). -/
def reference (n : Nat) : Ty := if n = 1 then .elem false else .handle .subArray (n - 1) false
/-- `const_reference`: `const_sub_array<T,n-1>` (default pointer `const T*`, base.hpp:83), or `const T&` (base.hpp:125, 165, 251). -/
def constReference (n : Nat) : Ty := if n = 1 then .elem true else .handle (.constSubArray false) (n - 1) false

/-- The members that lead to elements.  `slice m`: `operator[](index_gen<NumDims,m>)`. -/
inductive Member where
  | bracket | paren | slice (m : Nat) | begin_ | end_ | rbegin | rend | origin | data
deriving DecidableEq, Repr

/-- One overload: const-qualified or not, and its declared result type. -/
structure Overload where
  isConst : Bool
  ret : Ty

/-- The public overloads of each member per class, for an object of `n` dimensions.  A derived class that declares any overload of a name hides
the inherited ones; the mutable classes re-declare every const overload ("proxies"). -/
def overloads : Cls → Nat → Member → List Overload
  -- const_multi_array_ref: multi_array_ref.hpp:221-225, 211-218, 228-241, 243-246, 248-251, 253-255, 257-259, 197, 198
  | .constMultiArrayRef _, n, .bracket => [⟨true, constReference n⟩]
  | .constMultiArrayRef _, _, .paren => [⟨true, .elem true⟩]
  | .constMultiArrayRef _, _, .slice m => [⟨true, .handle (.constView false) m false⟩]
  | .constMultiArrayRef _, n, .begin_ => [⟨true, .iter false n⟩]
  | .constMultiArrayRef _, n, .end_ => [⟨true, .iter false n⟩]
  | .constMultiArrayRef _, n, .rbegin => [⟨true, .riter false n⟩]
  | .constMultiArrayRef _, n, .rend => [⟨true, .riter false n⟩]
  | .constMultiArrayRef _, _, .origin => [⟨true, .ptr true⟩]
  | .constMultiArrayRef _, _, .data => [⟨true, .ptr true⟩]
  -- multi_array_ref, inherited unchanged by multi_array:
  -- multi_array_ref.hpp:519-524 and 578-583, 508-516 and 571-576, 528-540 and 586-592, 543-546 and 594-596, 548-552 and 598-600,
  -- 555-558 and 602-604, 560-563 and 606-608, 504 and 568, 506 and 569
  | .multiArrayRef, n, .bracket | .multiArray, n, .bracket => [⟨false, reference n⟩, ⟨true, constReference n⟩]
  | .multiArrayRef, _, .paren | .multiArray, _, .paren => [⟨false, .elem false⟩, ⟨true, .elem true⟩]
  | .multiArrayRef, _, .slice m | .multiArray, _, .slice m => [⟨false, .handle .view m false⟩, ⟨true, .handle (.constView false) m false⟩]
  | .multiArrayRef, n, .begin_ | .multiArray, n, .begin_ => [⟨false, .iter true n⟩, ⟨true, .iter false n⟩]
  | .multiArrayRef, n, .end_ | .multiArray, n, .end_ => [⟨false, .iter true n⟩, ⟨true, .iter false n⟩]
  | .multiArrayRef, n, .rbegin | .multiArray, n, .rbegin => [⟨false, .riter true n⟩, ⟨true, .riter false n⟩]
  | .multiArrayRef, n, .rend | .multiArray, n, .rend => [⟨false, .riter true n⟩, ⟨true, .riter false n⟩]
  | .multiArrayRef, _, .origin | .multiArray, _, .origin => [⟨false, .ptr false⟩, ⟨true, .ptr true⟩]
  | .multiArrayRef, _, .data | .multiArray, _, .data => [⟨false, .ptr false⟩, ⟨true, .ptr true⟩]
  -- const_sub_array: subarray.hpp:75-78, 80-87, 90-103, 137-140, 142-145, 147-149, 151-153; note 155: origin() returns TPtr; no data()
  | .constSubArray _, n, .bracket => [⟨true, constReference n⟩]
  | .constSubArray _, _, .paren => [⟨true, .elem true⟩]
  | .constSubArray _, _, .slice m => [⟨true, .handle (.constView false) m false⟩]
  | .constSubArray _, n, .begin_ => [⟨true, .iter false n⟩]
  | .constSubArray _, n, .end_ => [⟨true, .iter false n⟩]
  | .constSubArray _, n, .rbegin => [⟨true, .riter false n⟩]
  | .constSubArray _, n, .rend => [⟨true, .riter false n⟩]
  | .constSubArray mp, _, .origin => [⟨true, .ptr (!mp)⟩]
  | .constSubArray _, _, .data => []
  -- sub_array: subarray.hpp:259-263 and 322-324, 280-288 and 315-320, 266-278 and 327-333, 290-293 and 335-337, 295-298 and 339-341,
  -- 301-304 and 343-345, 306-309 and 347-349, 256 and 257
  | .subArray, n, .bracket => [⟨false, reference n⟩, ⟨true, constReference n⟩]
  | .subArray, _, .paren => [⟨false, .elem false⟩, ⟨true, .elem true⟩]
  | .subArray, _, .slice m => [⟨false, .handle .view m false⟩, ⟨true, .handle (.constView false) m false⟩]
  | .subArray, n, .begin_ => [⟨false, .iter true n⟩, ⟨true, .iter false n⟩]
  | .subArray, n, .end_ => [⟨false, .iter true n⟩, ⟨true, .iter false n⟩]
  | .subArray, n, .rbegin => [⟨false, .riter true n⟩, ⟨true, .riter false n⟩]
  | .subArray, n, .rend => [⟨false, .riter true n⟩, ⟨true, .riter false n⟩]
  | .subArray, _, .origin => [⟨false, .ptr false⟩, ⟨true, .ptr true⟩]
  | .subArray, _, .data => []
  -- const_multi_array_view: view.hpp:130-135, 120-127, 138-151, 152-155, 157-160, 162-164, 166-168; 112: origin() returns const T*
  | .constView _, n, .bracket => [⟨true, constReference n⟩]
  | .constView _, _, .paren => [⟨true, .elem true⟩]
  | .constView _, _, .slice m => [⟨true, .handle (.constView false) m false⟩]
  | .constView _, n, .begin_ => [⟨true, .iter false n⟩]
  | .constView _, n, .end_ => [⟨true, .iter false n⟩]
  | .constView _, n, .rbegin => [⟨true, .riter false n⟩]
  | .constView _, n, .rend => [⟨true, .riter false n⟩]
  | .constView _, _, .origin => [⟨true, .ptr true⟩]
  | .constView _, _, .data => []
  -- multi_array_view: view.hpp:336-341 and 392-394, 325-333 and 385-390, 345-357 and 397-403, 360-364 and 405-407, 366-370 and 409-411,
  -- 372-374 and 413-415, 376-378 and 417-419, 323 and 383
  | .view, n, .bracket => [⟨false, reference n⟩, ⟨true, constReference n⟩]
  | .view, _, .paren => [⟨false, .elem false⟩, ⟨true, .elem true⟩]
  | .view, _, .slice m => [⟨false, .handle .view m false⟩, ⟨true, .handle (.constView false) m false⟩]
  | .view, n, .begin_ => [⟨false, .iter true n⟩, ⟨true, .iter false n⟩]
  | .view, n, .end_ => [⟨false, .iter true n⟩, ⟨true, .iter false n⟩]
  | .view, n, .rbegin => [⟨false, .riter true n⟩, ⟨true, .riter false n⟩]
  | .view, n, .rend => [⟨false, .riter true n⟩, ⟨true, .riter false n⟩]
  | .view, _, .origin => [⟨false, .ptr false⟩, ⟨true, .ptr true⟩]
  | .view, _, .data => []

/-- C++ overload resolution on the implicit object parameter: a const object can only use a const member; a non-const object prefers the
non-const one. (Models the language rule used by every call of the members cited at `overloads`, e.g. multi_array_ref.hpp:519-524 against 578-583.) -/
def resolve (objConst : Bool) (l : List Overload) : Option Ty :=
  if objConst then (l.find? (·.isConst)).map (·.ret)
  else match l.find? (fun o => !o.isConst) with
    | some o => some o.ret
    | none => (l.head?).map (·.ret)

/-- One step of an access expression. -/
inductive Op where
  | call (m : Member)
  /-- bind to a reference to the (public) base class -/
  | upcast
  /-- bind to a reference-to-const, or convert `T*` to `const T*` / `T&` to `const T&` -/
  | addConst
  /-- `*it`, `*rit`, `*p` -/
  | deref
  /-- `it.operator->()` followed by `*`: the pointee of the arrow proxy -/
  | arrow
  /-- `++`, `--`, `+ n`, `- n` on an iterator or pointer -/
  | advance
  /-- `rit.base()` -/
  | base
  /-- `&e` on an element lvalue -/
  | addressOf
  /-- the converting constructors between handle or iterator types with a different `TPtr` -/
  | convert
  /-- copy construction of a non-owning handle (the new object denotes the same elements and is not const) -/
  | copy
  /-- construct a `multi_array_ref` from (a class derived from) `multi_array_ref` with its implicitly declared copy constructor -/
  | refCopy
deriving DecidableEq, Repr

/-- Public base class of each class (multi_array.hpp:121, multi_array_ref.hpp:413, subarray.hpp:202, view.hpp:265): same object, same const. -/
def baseOf : Cls → Option Cls
  | .multiArray => some .multiArrayRef
  | .multiArrayRef => some (.constMultiArrayRef true)
  | .subArray => some (.constSubArray true)
  | .view => some (.constView true)
  | _ => none

/-- The type of `op` applied to an expression of type `t`; `none` if the expression is ill-formed. -/
def step : Op → Ty → Option Ty
  | .call m, .handle c n k => resolve k (overloads c n m)
  | .upcast, .handle c n k => (baseOf c).map (fun b => .handle b n k)
  | .addConst, .handle c n _ => some (.handle c n true)
  | .addConst, .elem _ => some (.elem true)
  | .addConst, .ptr _ => some (.ptr true)
  -- array_iterator::dereference (iterator.hpp:120-129) returns `Reference`, which the typedefs of base.hpp:279-286 fix
  | .deref, .iter m n => some (if m then reference n else constReference n)
  | .deref, .riter m n => some (if m then reference n else constReference n)
  | .deref, .ptr k => some (.elem k)
  -- operator-> returns operator_arrow_proxy<reference>, whose T* points to a `mutable` copy of the proxy (iterator.hpp:35-44, 113-117).
  -- For one dimension `reference` is a C++ reference and `T*` would be a pointer to reference: ill-formed.
  | .arrow, .iter m n => if n = 1 then none else some (if m then reference n else constReference n)
  | .advance, .iter m n => some (.iter m n)
  | .advance, .riter m n => some (.riter m n)
  | .advance, .ptr k => some (.ptr k)
  | .base, .riter m n => some (.iter m n)
  | .addressOf, .elem k => some (.ptr k)
  -- template converting constructors: they initialise `TPtr base_` from `OPtr`, so they instantiate only for T* -> const T* (or equal types)
  -- multi_array_ref.hpp:79-87, subarray.hpp:67-71, view.hpp:67-74; array_iterator: iterator.hpp:103-109 (enable_if_convertible)
  | .convert, .handle (.constMultiArrayRef _) n _ => some (.handle (.constMultiArrayRef false) n false)
  | .convert, .handle (.constSubArray _) n _ => some (.handle (.constSubArray false) n false)
  | .convert, .handle (.constView _) n _ => some (.handle (.constView false) n false)
  | .convert, .iter _ n => some (.iter false n)
  | .convert, .riter _ n => some (.riter false n)
  -- implicitly declared copy constructors (no class declares or deletes one except multi_array, which copies the elements,
  -- multi_array.hpp:229-234)
  | .copy, .handle .multiArray _ _ => none
  | .copy, .handle c n _ => some (.handle c n false)
  | .copy, .iter m n => some (.iter m n)
  | .copy, .riter m n => some (.riter m n)
  | .copy, .ptr k => some (.ptr k)
  | .refCopy, .handle .multiArray n _ => some (.handle .multiArrayRef n false)
  | .refCopy, .handle .multiArrayRef n _ => some (.handle .multiArrayRef n false)
  | _, _ => none

/-- The type of a whole access chain. -/
def chain : List Op → Ty → Option Ty
  | [], t => some t
  | op :: ops, t => (step op t).bind (chain ops)

/-- Expressions that can write elements of the array they denote without further access steps: a non-const element lvalue; a non-const object with an
assignment operator (multi_array.hpp:422-432, multi_array_ref.hpp:476-502, subarray.hpp:229-254, view.hpp:295-321) or `resize`
(multi_array.hpp:436-512); and a non-const `const_multi_array_ref` whose pointer is `T*`, through `assign` (multi_array_ref.hpp:128-139, whose
`T* out_iter = base_` does not compile for `const T*`). The private `operator=` of the const classes (multi_array_ref.hpp:360,
subarray.hpp:192, view.hpp:259) is not usable. -/
def writable : Ty → Bool
  | .elem k => !k
  | .handle .multiArray _ k => !k
  | .handle .multiArrayRef _ k => !k
  | .handle (.constMultiArrayRef mp) _ k => mp && !k
  | .handle .subArray _ k => !k
  | .handle .view _ k => !k
  | .handle (.constSubArray _) _ _ => false
  | .handle (.constView _) _ _ => false
  | .iter _ _ => false
  | .riter _ _ => false
  | .ptr _ => false

end MultiArray.CxxConst
