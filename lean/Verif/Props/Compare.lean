import Verif.Lemmas.Compare
import Verif.Props.Copy

/- Property theorems C40-C42: comparison operators. -/
set_option autoImplicit false

namespace MultiArray.Props
open MultiArray MultiArray.Spec
variable {T : Type}

theorem _root_.MultiArray.Spec.Readable.contents [Nonempty T] {s : St T} {n : Nat} {a : Desc} (h : Readable s n a) : ∃ f, Contents s a f := by
  obtain ⟨m, root, hr, hh, hl, _⟩ := h
  classical
  refine ⟨fun k => (elemAt s a k).getD (Classical.arbitrary T), ?_⟩
  intro k hk
  obtain ⟨v, hv⟩ := hl.handle hr.wf hh (inBox_atPos (handle_wellShaped hr hh).2 hk)
  simp only [elemAt, hv, Option.getD_some]

theorem _root_.MultiArray.Spec.Readable.ws {s : St T} {n : Nat} {a : Desc} (h : Readable s n a) : WellShaped a := by
  obtain ⟨m, root, hr, hh, _, _⟩ := h
  exact handle_wellShaped hr hh

theorem _root_.MultiArray.Spec.Readable.len {s : St T} {n : Nat} {a : Desc} (h : Readable s n a) : a.extents.length = n := by
  obtain ⟨m, root, _, _, _, h⟩ := h
  exact h

/-- **C40.** `a == b` (for any two arrays, subarrays or views of the same dimensionality) is true iff the shapes are equal
and the elements at every zero-based position compare equal - bases, strides and storage orders are
irrelevant; `a != b` is its negation. -/
theorem C40_equality [Nonempty T] (s : St T) (n : Nat) (a b : Desc) (ha : Readable s n a) (hb : Readable s n b) (dbg : Bool)
    (eq : T → T → Bool) :
    ∃ r, equalRef dbg eq s n a b = .ok r ∧ notEqualRef dbg eq s n a b = .ok (!r) ∧
      (r = true ↔ a.extents = b.extents ∧
        ∀ k, InShape a.extents k → ∃ x y, elemAt s a k = some x ∧ elemAt s b k = some y ∧ eq x y = true) := by
  obtain ⟨f, hf⟩ := ha.contents
  obtain ⟨g, hg⟩ := hb.contents
  have h := equalRef_spec dbg eq s n a b ha.ws hb.ws ha.len hb.len f g hf hg
  refine ⟨_, h, by rw [notEqualRef, h, Res.bind_ok], ?_⟩
  simp only [Bool.and_eq_true, decide_eq_true_eq, List.all_eq_true, mem_allPos]
  constructor
  · rintro ⟨h1, h2⟩
    exact ⟨h1, fun k hk => ⟨_, _, hf k hk, hg k (by rw [← h1]; exact hk), h2 k hk⟩⟩
  · rintro ⟨h1, h2⟩
    refine ⟨h1, fun k hk => ?_⟩
    obtain ⟨x, y, hx, hy, hxy⟩ := h2 k hk
    rw [hf k hk] at hx
    rw [hg k (by rw [← h1]; exact hk)] at hy
    cases hx; cases hy
    exact hxy

/-- **C40.** `==` is reflexive, symmetric and transitive when element equality is. -/
theorem C40_equivalence [Nonempty T] (s : St T) (n : Nat) (a b c : Desc) (ha : Readable s n a) (hb : Readable s n b)
    (hc : Readable s n c) (dbg : Bool) (eq : T → T → Bool) :
    ((∀ x, eq x x = true) → equalRef dbg eq s n a a = .ok true) ∧
    ((∀ x y, eq x y = true → eq y x = true) → equalRef dbg eq s n a b = .ok true → equalRef dbg eq s n b a = .ok true) ∧
    ((∀ x y z, eq x y = true → eq y z = true → eq x z = true) → equalRef dbg eq s n a b = .ok true →
      equalRef dbg eq s n b c = .ok true → equalRef dbg eq s n a c = .ok true) := by
  obtain ⟨f, hf⟩ := ha.contents
  obtain ⟨g, hg⟩ := hb.contents
  obtain ⟨h, hh⟩ := hc.contents
  rw [equalRef_spec dbg eq s n a a ha.ws ha.ws ha.len ha.len f f hf hf,
    equalRef_spec dbg eq s n a b ha.ws hb.ws ha.len hb.len f g hf hg,
    equalRef_spec dbg eq s n b a hb.ws ha.ws hb.len ha.len g f hg hf,
    equalRef_spec dbg eq s n b c hb.ws hc.ws hb.len hc.len g h hg hh,
    equalRef_spec dbg eq s n a c ha.ws hc.ws ha.len hc.len f h hf hh]
  simp only [Res.ok.injEq, Bool.and_eq_true, decide_eq_true_eq, List.all_eq_true, mem_allPos]
  refine ⟨fun hr => ⟨trivial, fun k _ => hr _⟩, ?_, ?_⟩
  · rintro hs ⟨h1, h2⟩
    exact ⟨h1.symm, fun k hk => hs _ _ (h2 k (by rw [h1]; exact hk))⟩
  · rintro ht ⟨h1, h2⟩ ⟨h3, h4⟩
    exact ⟨h1.trans h3, fun k hk => ht _ _ _ (h2 k hk) (h4 k (by rw [← h1]; exact hk))⟩

/-- **C41.** `a < b` is the recursive lexicographic comparison of the two array values (lists of lists of ... of elements),
also when the shapes differ. -/
theorem C41_less_is_lexicographic (s : St T) (n : Nat) (a b : Desc) (ha : Readable s n a) (hb : Readable s n b) (dbg : Bool)
    (lt : T → T → Bool) (f g : List Nat → T) (hf : Contents s a f) (hg : Contents s b g) :
    ∃ r, lessRef dbg lt s n a b = .ok r ∧ (r = true ↔ ValLess lt n (nested n a.extents f) (nested n b.extents g)) :=
  ⟨_, lessRef_spec dbg lt s n a b ha.ws hb.ws ha.len hb.len f g hf hg, lexVal_iff lt n _ _⟩

/-- **C41.** If element `<` is a strict weak order then so is `<` on arrays (of any shapes): irreflexive, asymmetric,
transitive, and with transitive incomparability. -/
theorem C41_strict_weak_order [Nonempty T] (s : St T) (n : Nat) (a b c : Desc) (ha : Readable s n a) (hb : Readable s n b)
    (hc : Readable s n c) (dbg : Bool) (lt : T → T → Bool) (hlt : StrictWeak lt) :
    lessRef dbg lt s n a a = .ok false ∧
    (lessRef dbg lt s n a b = .ok true → lessRef dbg lt s n b a = .ok false) ∧
    (lessRef dbg lt s n a b = .ok true → lessRef dbg lt s n b c = .ok true → lessRef dbg lt s n a c = .ok true) ∧
    (lessRef dbg lt s n a b = .ok false → lessRef dbg lt s n b a = .ok false →
      lessRef dbg lt s n b c = .ok false → lessRef dbg lt s n c b = .ok false →
      lessRef dbg lt s n a c = .ok false ∧ lessRef dbg lt s n c a = .ok false) := by
  obtain ⟨f, hf⟩ := ha.contents
  obtain ⟨g, hg⟩ := hb.contents
  obtain ⟨h, hh⟩ := hc.contents
  have key := fun (x y : Desc) (fx fy : List Nat → T) (hx : Readable s n x) (hy : Readable s n y) (hfx : Contents s x fx)
    (hfy : Contents s y fy) => lessRef_spec dbg lt s n x y hx.ws hy.ws hx.len hy.len fx fy hfx hfy
  rw [key a a f f ha ha hf hf, key a b f g ha hb hf hg, key b a g f hb ha hg hf, key b c g h hb hc hg hh,
    key a c f h ha hc hf hh, key c b h g hc hb hh hg, key c a h f hc ha hh hf]
  have hswo := (SWO.ofStrictWeak hlt).lexVal n
  have hsw := hswo.strictWeak
  simp only [Res.ok.injEq]
  exact ⟨hsw.irrefl _, hswo.asymm _ _, hsw.trans _ _ _, hsw.equivTrans _ _ _⟩

/-- **C41.** For a strict total element order whose equality is `==`, and arrays of equal shape, exactly one of `a < b`,
`a == b`, `b < a` holds. -/
theorem C41_trichotomy [Nonempty T] (s : St T) (n : Nat) (a b : Desc) (ha : Readable s n a) (hb : Readable s n b)
    (dbg : Bool) (lt eq : T → T → Bool) (hlt : StrictWeak lt) (htot : ∀ x y, lt x y = false → lt y x = false → x = y)
    (heq : ∀ x y, eq x y = true ↔ x = y) (hshape : a.extents = b.extents) :
    ∃ l e g, lessRef dbg lt s n a b = .ok l ∧ equalRef dbg eq s n a b = .ok e ∧ lessRef dbg lt s n b a = .ok g ∧
      ((l = true ∧ e = false ∧ g = false) ∨ (l = false ∧ e = true ∧ g = false) ∨ (l = false ∧ e = false ∧ g = true)) := by
  obtain ⟨f, hf⟩ := ha.contents
  obtain ⟨g, hg⟩ := hb.contents
  have hswo := (SWO.ofStrictWeak hlt).lexVal n
  refine ⟨_, _, _, lessRef_spec dbg lt s n a b ha.ws hb.ws ha.len hb.len f g hf hg,
    equalRef_spec dbg eq s n a b ha.ws hb.ws ha.len hb.len f g hf hg,
    lessRef_spec dbg lt s n b a hb.ws ha.ws hb.len ha.len g f hg hf, ?_⟩
  have hiff : (decide (a.extents = b.extents) && (allPos a.extents).all fun k => eq (f k) (g k)) = true ↔
      nested n a.extents f = nested n b.extents g := by
    simp only [Bool.and_eq_true, decide_eq_true_eq, List.all_eq_true, mem_allPos, heq]
    constructor
    · rintro ⟨_, h⟩; rw [← hshape]; exact nested_congr n _ _ _ ha.len h
    · intro h
      exact ⟨hshape, (nested_inj n _ _ _ _ ha.len hb.len h).2 hshape⟩
  generalize he : (decide (a.extents = b.extents) && (allPos a.extents).all fun k => eq (f k) (g k)) = e at hiff
  cases h1 : lexVal lt n (nested n a.extents f) (nested n b.extents g) with
  | true =>
    have h2 := hswo.asymm _ _ h1
    left
    refine ⟨rfl, ?_, h2⟩
    cases e with
    | false => rfl
    | true =>
      rw [hiff.mp rfl, hswo.strictWeak.irrefl] at h1
      cases h1
  | false =>
    cases h2 : lexVal lt n (nested n b.extents g) (nested n a.extents f) with
    | true =>
      right; right
      refine ⟨rfl, ?_, rfl⟩
      cases e with
      | false => rfl
      | true =>
        rw [hiff.mp rfl, hswo.strictWeak.irrefl] at h2
        cases h2
    | false =>
      right; left
      exact ⟨rfl, hiff.mpr (lexVal_total htot n _ _ h1 h2), rfl⟩

/-- **C42.** The derived operators: `a > b` iff `b < a`; `a <= b` iff not `a > b`; `a >= b` iff not `a < b`; consequently
`a <= b` iff `b >= a`; and for a strict weak element order exactly one of `a < b`, `a >= b` holds and `a <= b || b <= a`. -/
theorem C42_derived_operators [Nonempty T] (s : St T) (n : Nat) (a b : Desc) (ha : Readable s n a) (hb : Readable s n b)
    (dbg : Bool) (lt : T → T → Bool) (hlt : StrictWeak lt) :
    ∃ l g, lessRef dbg lt s n a b = .ok l ∧ lessRef dbg lt s n b a = .ok g ∧
      greaterRef dbg lt s n a b = .ok g ∧ lessEqRef dbg lt s n a b = .ok (!g) ∧ greaterEqRef dbg lt s n a b = .ok (!l) ∧
      lessEqRef dbg lt s n b a = .ok (!l) ∧ ((!g) = true ∨ (!l) = true) := by
  obtain ⟨f, hf⟩ := ha.contents
  obtain ⟨g, hg⟩ := hb.contents
  have h1 := lessRef_spec dbg lt s n a b ha.ws hb.ws ha.len hb.len f g hf hg
  have h2 := lessRef_spec dbg lt s n b a hb.ws ha.ws hb.len ha.len g f hg hf
  refine ⟨_, _, h1, h2, by rw [greaterRef, h2], by rw [lessEqRef, greaterRef, h2, Res.bind_ok],
    by rw [greaterEqRef, h1, Res.bind_ok], by rw [lessEqRef, greaterRef, h1, Res.bind_ok], ?_⟩
  have := ((SWO.ofStrictWeak hlt).lexVal n).asymm (nested n a.extents f) (nested n b.extents g)
  cases hx : lexVal lt n (nested n a.extents f) (nested n b.extents g) with
  | false => right; rfl
  | true => left; rw [this hx]; rfl

/-- **C42, antisymmetry is false in general:** arrays of shapes 0x3 and 0x5 satisfy `a <= b && b <= a` but not `a == b`. -/
theorem C42_antisymmetry_counterexample :
    ∃ (s : St Nat) (a b : Desc), Readable s 2 a ∧ Readable s 2 b ∧
      lessEqRef true (fun x y => decide (x < y)) s 2 a b = .ok true ∧
      lessEqRef true (fun x y => decide (x < y)) s 2 b a = .ok true ∧
      equalRef true (fun x y => decide (x = y)) s 2 a b = .ok false := by
  refine ⟨⟨fun b => if b = 1 then some ⟨0, []⟩ else if b = 2 then some ⟨0, []⟩ else none, 3, []⟩, _, _,
    ⟨2, _, .ofExtents (n := 2) (p := ⟨1, 0⟩) (exts := [0, 3]) (cOrder_valid 2) rfl, .array, ?_, rfl⟩,
    ⟨2, _, .ofExtents (n := 2) (p := ⟨2, 0⟩) (exts := [0, 5]) (cOrder_valid 2) rfl, .array, ?_, rfl⟩, rfl, rfl, rfl⟩
  · intro k hk; exact absurd hk (by show ¬ k < 0; omega)
  · intro k hk; exact absurd hk (by show ¬ k < 0; omega)

/-- **C42, the part that holds:** for a strict total element order, `a <= b && b <= a` implies `a == b` whenever the shapes are
equal or one of them has no zero extent.  Missing from the full property: arrays of different shape both
having a zero extent, for which it is false. -/
theorem C42_antisymmetry_partial [Nonempty T] (s : St T) (n : Nat) (a b : Desc) (ha : Readable s n a) (hb : Readable s n b)
    (dbg : Bool) (lt eq : T → T → Bool) (htot : ∀ x y, lt x y = false → lt y x = false → x = y)
    (heq : ∀ x y, eq x y = true ↔ x = y) (hshape : a.extents = b.extents ∨ 0 ∉ a.extents ∨ 0 ∉ b.extents)
    (h1 : lessEqRef dbg lt s n a b = .ok true) (h2 : lessEqRef dbg lt s n b a = .ok true) :
    equalRef dbg eq s n a b = .ok true := by
  obtain ⟨f, hf⟩ := ha.contents
  obtain ⟨g, hg⟩ := hb.contents
  rw [lessEqRef, greaterRef, lessRef_spec dbg lt s n b a hb.ws ha.ws hb.len ha.len g f hg hf, Res.bind_ok, Res.ok.injEq,
    Bool.not_eq_true'] at h1
  rw [lessEqRef, greaterRef, lessRef_spec dbg lt s n a b ha.ws hb.ws ha.len hb.len f g hf hg, Res.bind_ok, Res.ok.injEq,
    Bool.not_eq_true'] at h2
  have hval := lexVal_total htot n _ _ h2 h1
  have hs : a.extents = b.extents := by
    rcases hshape with h | h | h
    · exact h
    · exact (nested_inj n _ _ _ _ ha.len hb.len hval).1 h
    · exact ((nested_inj n _ _ _ _ hb.len ha.len hval.symm).1 h).symm
  rw [equalRef_spec dbg eq s n a b ha.ws hb.ws ha.len hb.len f g hf hg]
  simp only [Res.ok.injEq, Bool.and_eq_true, decide_eq_true_eq, List.all_eq_true, mem_allPos, heq]
  exact ⟨hs, (nested_inj n _ _ _ _ ha.len hb.len hval).2 hs⟩

theorem exArr_readable : Readable exSt2 3 exArr.desc := ⟨3, exArr, exArr_reachable, .array, exSt2_live, rfl⟩
theorem exArr2_readable : Readable exSt2 3 exArr2.desc := ⟨3, exArr2, exArr2_reachable, .array, exSt2_live2, rfl⟩
theorem natLt_strictWeak : StrictWeak (fun x y : Nat => decide (x < y)) :=
  ⟨by simp, by intro x y z; simp; omega, by intro x y z; simp; omega⟩

/-- Non-vacuity: two arrays of equal shape with different layouts, and the strict total order on `Nat`. -/
example : Readable exSt2 3 exArr.desc ∧ Readable exSt2 3 exArr2.desc ∧ StrictWeak (fun x y : Nat => decide (x < y)) ∧
    equalRef true (fun x y => decide (x = y)) exSt2 3 exArr.desc exArr2.desc = .ok false ∧
    lessRef true (fun x y => decide (x < y)) exSt2 3 exArr.desc exArr2.desc = .ok true :=
  ⟨exArr_readable, exArr2_readable, natLt_strictWeak, rfl, rfl⟩

/-! ### Instances: the theorems applied to concrete cases, whose hypotheses are thereby met -/

example := C40_equality exSt2 3 _ _ exArr_readable exArr2_readable true (fun x y => decide (x = y))
example := C40_equivalence exSt2 3 _ _ _ exArr_readable exArr2_readable exArr_readable true (fun x y => decide (x = y))
example := C41_less_is_lexicographic exSt2 3 exArr.desc exArr2.desc exArr_readable exArr2_readable true (fun x y => decide (x < y))
example := C41_strict_weak_order exSt2 3 _ _ _ exArr_readable exArr2_readable exArr_readable true _ natLt_strictWeak
example := C41_trichotomy exSt2 3 _ _ exArr_readable exArr2_readable true _ (fun x y => decide (x = y)) natLt_strictWeak
  (by intro x y; simp; omega) (by simp) rfl
example := C42_derived_operators exSt2 3 _ _ exArr_readable exArr2_readable true _ natLt_strictWeak
example := C42_antisymmetry_partial exSt2 3 _ _ exArr_readable exArr_readable true (fun x y => decide (x < y)) (fun x y => decide (x = y))
  (by intro x y; simp; omega) (by simp) (.inl rfl) rfl rfl

/- end of instances -/

end MultiArray.Props
