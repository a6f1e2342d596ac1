import Verif.SpecConst

/- Property theorems C55, C59: const-ness. -/
set_option autoImplicit false

namespace MultiArray.Props
open MultiArray Spec CxxConst

/-- What a chain of access steps from a read-only object can be. -/
private def Safe : Ty → Bool
  | .handle .multiArray _ k => k
  | .handle .multiArrayRef _ k => k
  | .handle (.constMultiArrayRef mp) _ k => !mp || k
  | .handle .subArray _ _ => false
  | .handle (.constSubArray mp) _ _ => !mp
  | .handle .view _ k => k
  | .handle (.constView _) _ _ => true
  | .iter m _ => !m
  | .riter m _ => !m
  | .elem k => k
  | .ptr k => k

private theorem safe_constReference (n : Nat) : Safe (constReference n) = true := by
  unfold constReference; split <;> rfl

private theorem safe_step {op : Op} (hc : op ≠ .copy) (hr : op ≠ .refCopy) {t t' : Ty} (ht : Safe t = true) (h : step op t = some t') :
    Safe t' = true := by
  cases op with
  | copy => exact absurd rfl hc
  | refCopy => exact absurd rfl hr
  | call m =>
    cases t with
    | handle c n k =>
      rcases c with _ | _ | (_ | _) | _ | (_ | _) | _ | (_ | _) <;> cases k <;> simp [Safe] at ht <;> cases m <;>
        simp [step, overloads, resolve] at h <;> subst h <;> first | rfl | exact safe_constReference n
    | iter m n => simp [step] at h
    | riter m n => simp [step] at h
    | elem k => simp [step] at h
    | ptr k => simp [step] at h
  | upcast =>
    cases t with
    | handle c n k =>
      rcases c with _ | _ | (_ | _) | _ | (_ | _) | _ | (_ | _) <;> cases k <;> simp [Safe] at ht <;>
        simp [step, baseOf] at h <;> subst h <;> rfl
    | iter m n => simp [step] at h
    | riter m n => simp [step] at h
    | elem k => simp [step] at h
    | ptr k => simp [step] at h
  | addConst =>
    cases t with
    | handle c n k =>
      rcases c with _ | _ | (_ | _) | _ | (_ | _) | _ | (_ | _) <;> cases k <;> simp [Safe] at ht <;>
        simp [step] at h <;> subst h <;> rfl
    | iter m n => simp [step] at h
    | riter m n => simp [step] at h
    | elem k => simp [step] at h; subst h; rfl
    | ptr k => simp [step] at h; subst h; rfl
  | deref =>
    cases t with
    | handle c n k => simp [step] at h
    | iter m n => cases m <;> simp [Safe] at ht; simp [step] at h; subst h; exact safe_constReference n
    | riter m n => cases m <;> simp [Safe] at ht; simp [step] at h; subst h; exact safe_constReference n
    | elem k => simp [step] at h
    | ptr k => simp [step] at h; subst h; exact ht
  | arrow =>
    cases t with
    | iter m n =>
      cases m <;> simp [Safe] at ht
      simp [step] at h
      obtain ⟨_, h⟩ := h
      subst h; exact safe_constReference n
    | _ => simp [step] at h
  | advance =>
    cases t with
    | handle c n k => simp [step] at h
    | elem k => simp [step] at h
    | iter m n => simp [step] at h; subst h; exact ht
    | riter m n => simp [step] at h; subst h; exact ht
    | ptr k => simp [step] at h; subst h; exact ht
  | base =>
    cases t with
    | riter m n => simp [step] at h; subst h; exact ht
    | _ => simp [step] at h
  | addressOf =>
    cases t with
    | elem k => simp [step] at h; subst h; exact ht
    | _ => simp [step] at h
  | convert =>
    cases t with
    | handle c n k => rcases c with _ | _ | (_ | _) | _ | (_ | _) | _ | (_ | _) <;> simp [step] at h <;> subst h <;> rfl
    | iter m n => simp [step] at h; subst h; rfl
    | riter m n => simp [step] at h; subst h; rfl
    | elem k => simp [step] at h
    | ptr k => simp [step] at h

private theorem safe_chain (ops : List Op) (hok : Accesses ops) {t t' : Ty} (ht : Safe t = true) (h : chain ops t = some t') :
    Safe t' = true := by
  induction ops generalizing t with
  | nil => cases h; exact ht
  | cons op ops ih =>
    obtain ⟨h1, h2⟩ := hok
    simp only [List.mem_cons, not_or] at h1 h2
    simp only [chain, Option.bind_eq_some_iff] at h
    obtain ⟨u, hu, h⟩ := h
    exact ih ⟨h1.2, h2.2⟩ (safe_step (Ne.symm h1.1) (Ne.symm h2.1) ht hu) h

private theorem safe_not_writable {t : Ty} (h : Safe t = true) : writable t = false := by
  cases t with
  | handle c n k => rcases c with _ | _ | (_ | _) | _ | (_ | _) | _ | (_ | _) <;> cases k <;> simp [Safe] at h <;> rfl
  | elem k => simp only [Safe] at h; subst h; rfl
  | _ => rfl

private theorem readOnly_safe {t : Ty} (h : ReadOnly t) : Safe t = true := by cases h <;> rfl

/-- **C55.** From a read-only object, no chain of element access, slicing, iteration, pointer and base-class conversions, however long, ends in an
expression that can write an element. -/
theorem C55_const_preserved {t : Ty} (ht : ReadOnly t) : ¬ MutablyReaches Accesses t := by
  rintro ⟨ops, t', hok, hc, hw⟩
  rw [safe_not_writable (safe_chain ops hok (readOnly_safe ht) hc)] at hw
  cases hw

/-- **C55** for a const `sub_array`, as long as it is not used as an object of its base class (see `C59_counterexample_const_subarray`): its members
give read-only access only. -/
theorem C55_const_subarray_members (n : Nat) : ¬ MutablyReaches MemberAccesses (.handle .subArray n true) := by
  rintro ⟨ops, t', ⟨hok, hup⟩, hc, hw⟩
  induction ops with
  | nil => cases hc; cases hw
  | cons op ops ih =>
    obtain ⟨h1, h2⟩ := hok
    simp only [List.mem_cons, not_or] at h1 h2 hup
    simp only [chain, Option.bind_eq_some_iff] at hc
    obtain ⟨u, hu, hc⟩ := hc
    by_cases hadd : op = .addConst
    · subst hadd
      simp [step] at hu
      subst hu
      exact ih ⟨h1.2, h2.2⟩ hup.2 hc
    · have hs : Safe u = true := by
        cases op with
        | copy => exact absurd rfl h1.1
        | refCopy => exact absurd rfl h2.1
        | upcast => exact absurd rfl hup.1
        | addConst => exact absurd rfl hadd
        | call m => cases m <;> simp [step, overloads, resolve] at hu <;> subst hu <;> first | rfl | exact safe_constReference n
        | _ => simp [step] at hu
      rw [safe_not_writable (safe_chain ops ⟨h1.2, h2.2⟩ hs hc)] at hw
      cases hw

example : MemberAccesses [.call .bracket, .call .begin_, .deref] ∧
    chain [.call .bracket, .call .begin_, .deref] (.handle .subArray 2 true) = some (.elem true) ∧
    chain [.call .bracket, .call .begin_, .deref] (.handle .subArray 2 false) = some (.elem false) :=
  ⟨⟨⟨by decide, by decide⟩, by decide⟩, by decide, by decide⟩

/-- The chain of `n` subscripts `[i]...[j]` on an array of `n` dimensions. -/
private theorem brackets_sub (n : Nat) :
    chain (List.replicate (n + 1) (.call .bracket)) (.handle .subArray (n + 1) false) = some (.elem false) ∧
    chain (List.replicate (n + 1) (.call .bracket)) (.handle (.constSubArray false) (n + 1) false) = some (.elem true) := by
  induction n with
  | zero => exact ⟨rfl, rfl⟩
  | succ n ih =>
    rw [List.replicate_succ]
    have h1 : step (.call .bracket) (.handle .subArray (n + 1 + 1) false) = some (.handle .subArray (n + 1) false) := by
      simp [step, overloads, resolve, reference]
    have h2 : step (.call .bracket) (.handle (.constSubArray false) (n + 1 + 1) false) = some (.handle (.constSubArray false) (n + 1) false) := by
      simp [step, overloads, resolve, constReference]
    simp only [chain, h1, h2, Option.bind_some]
    exact ih

/-- **C55**, the other side: const-ness is exactly what decides. For every number of dimensions, `a[i]...[j]` on a non-const array is a
writable element, and on a const array it is well-formed and a read-only one. -/
theorem C55_subscripting (n : Nat) :
    chain (List.replicate (n + 1) (.call .bracket)) (.handle .multiArray (n + 1) false) = some (.elem false) ∧
    chain (List.replicate (n + 1) (.call .bracket)) (.handle .multiArray (n + 1) true) = some (.elem true) := by
  cases n with
  | zero => exact ⟨rfl, rfl⟩
  | succ n =>
    rw [List.replicate_succ]
    have h1 : step (.call .bracket) (.handle .multiArray (n + 1 + 1) false) = some (.handle .subArray (n + 1) false) := by
      simp [step, overloads, resolve, reference]
    have h2 : step (.call .bracket) (.handle .multiArray (n + 1 + 1) true) = some (.handle (.constSubArray false) (n + 1) false) := by
      simp [step, overloads, resolve, constReference]
    simp only [chain, h1, h2, Option.bind_some]
    exact brackets_sub n

/-- C55 is about long, well-formed chains: slice a const 3-dimensional array, take a reverse iterator, its base, step, dereference, slice again, begin,
dereference, take the address, dereference. -/
example : ReadOnly (.handle .multiArray 3 true) ∧ Accesses
    [.call (.slice 2), .call .rbegin, .base, .advance, .arrow, .call (.slice 1), .call .begin_, .deref, .addressOf, .advance, .deref] ∧
    chain [.call (.slice 2), .call .rbegin, .base, .advance, .arrow, .call (.slice 1), .call .begin_, .deref, .addressOf, .advance, .deref]
      (.handle .multiArray 3 true) = some (.elem true) ∧
    -- and the same chain on a non-const array reaches a writable element
    chain [.call (.slice 2), .call .rbegin, .base, .advance, .arrow, .call (.slice 1), .call .begin_, .deref, .addressOf, .advance, .deref]
      (.handle .multiArray 3 false) = some (.elem false) :=
  ⟨.array 3, by unfold Accesses; decide, by decide, by decide⟩

/-! ### C59: copying handles -/

/-- **C59**, partial: for `const_multi_array_ref`, `const_subarray`, `const_array_view`, the const iterators and pointers to const, const access stays const
even when handle objects are copied and converted along the way. Missing: the same for const objects of the mutable classes; false by the
counterexamples below. -/
theorem C59_copying_keeps_const_partial {t : Ty} (ht : DeepReadOnly t) : ¬ MutablyReaches (fun _ => True) t := by
  rintro ⟨ops, t', -, hc, hw⟩
  suffices h : DeepReadOnly t' by cases h <;> simp [writable] at hw
  have hcr : ∀ n, DeepReadOnly (constReference n) := by
    intro n; unfold constReference; split
    · exact .elem
    · exact .csub _ _
  clear hw
  induction ops generalizing t with
  | nil => cases hc; exact ht
  | cons op ops ih =>
    simp only [chain, Option.bind_eq_some_iff] at hc
    obtain ⟨u, hu, hc⟩ := hc
    refine ih ?_ hc
    cases ht with
    | cref n k =>
      cases op <;> simp [step, baseOf] at hu <;> try (subst hu; constructor)
      rename_i m
      cases k <;> cases m <;> simp [overloads, resolve] at hu <;> subst hu <;> first | constructor | exact hcr n
    | csub n k =>
      cases op <;> simp [step, baseOf] at hu <;> try (subst hu; constructor)
      rename_i m
      cases k <;> cases m <;> simp [overloads, resolve] at hu <;> subst hu <;> first | constructor | exact hcr n
    | cview n k =>
      cases op <;> simp [step, baseOf] at hu <;> try (subst hu; constructor)
      rename_i m
      cases k <;> cases m <;> simp [overloads, resolve] at hu <;> subst hu <;> first | constructor | exact hcr n
    | iter n =>
      cases op <;> simp [step] at hu
      all_goals first
        | (subst hu; first | constructor | exact hcr n)
        | (obtain ⟨_, hu⟩ := hu; subst hu; exact hcr n)
    | riter n =>
      cases op <;> simp [step] at hu <;> subst hu <;> first | constructor | exact hcr n
    | ptr => cases op <;> simp [step] at hu <;> subst hu <;> constructor
    | elem => cases op <;> simp [step] at hu <;> subst hu <;> constructor

/-- **C59 is false as stated** for const arrays: `const multi_array<T,n> a(...); multi_array_ref<T,n> r(a); r[i]... = x;` is well-formed for every
number of dimensions and writes the elements of the const array: the implicitly declared copy constructor of `multi_array_ref` accepts any const array. -/
theorem C59_counterexample_const_array (n : Nat) :
    ReadOnly (.handle .multiArray (n + 1) true) ∧
    chain (.refCopy :: List.replicate (n + 1) (.call .bracket)) (.handle .multiArray (n + 1) true) = some (.elem false) := by
  refine ⟨.array _, ?_⟩
  have h := (C55_subscripting n).1
  cases n with
  | zero => rfl
  | succ n =>
    rw [List.replicate_succ] at h ⊢
    simp only [chain, step, Option.bind_some] at h ⊢
    exact h

/-- **C59 is false** also for a const `sub_array` (and likewise a const `multi_array_view` or `multi_array_ref`): copying it gives a mutable handle to the
same elements, and without any copy its base class returns a mutable pointer from `origin() const`. -/
theorem C59_counterexample_const_subarray (n : Nat) :
    writable (.handle .subArray n true) = false ∧
    chain [.copy] (.handle .subArray n true) = some (.handle .subArray n false) ∧ writable (.handle .subArray n false) = true ∧
    chain [.upcast, .call .origin, .deref] (.handle .subArray n true) = some (.elem false) := ⟨rfl, rfl, rfl, rfl⟩

/-! ### Instances: the theorems applied to concrete cases, whose hypotheses are thereby met -/

example := C55_const_preserved (.array 3)
example := C55_const_preserved (.riter 2)
example := C59_copying_keeps_const_partial (.csub 2 false)

/- end of instances -/

end MultiArray.Props
