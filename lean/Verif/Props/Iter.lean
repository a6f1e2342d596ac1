import Verif.Lemmas.Iter
import Verif.Props.Access

/- Property theorems C26-C29: iterators. -/
set_option autoImplicit false

namespace MultiArray.Props
open MultiArray MultiArray.Spec

/-- The `k`-th value of the first dimension, `a[base+k]`, of a handle with first extent `e`. -/
def values (dbg : Bool) (d : Desc) : List (Res Desc) :=
  match d.extents, d.bases with
  | e :: _, b :: _ => (List.range e).map (fun (k : Nat) => access dbg (b + (k : Int)) d)
  | _, _ => []

theorem wellShaped_cons {d : Desc} (hw : WellShaped d) {e : Nat} {es : List Nat} (he : d.extents = e :: es) :
    ∃ s ss b bs, d = ⟨d.base, e :: es, s :: ss, b :: bs⟩ := by
  obtain ⟨p, es', ss, bs⟩ := d
  obtain ⟨h1, h2⟩ := hw
  simp only at he h1 h2
  subst he
  match ss, bs, h1, h2 with
  | s :: ss, b :: bs, _, _ => exact ⟨s, ss, b, bs, rfl⟩

/-- **C26.** For every array, subarray and view: `end() - begin() == size()`; `*(begin()+k)` is `a[base+k]` (and
succeeds) for all `k < size()`; stepping `begin()` reaches `end()` after exactly `size()` steps. -/
theorem C26_iterator_range {n : Nat} {root : ARef} (hr : Reachable n root) {d : Desc} (h : Handle root d)
    (e : Nat) (es : List Nat) (he : d.extents = e :: es) :
    ∃ b first last, d.bases.head? = some b ∧ d.begin = .ok first ∧ d.end = .ok last ∧ d.size = .ok e ∧
      last.sub first = (e : Int) ∧
      (∀ dbg (k : Nat), k < e → (first.advance k).deref dbg = access dbg (b + (k : Int)) d ∧
        ∃ v, access dbg (b + (k : Int)) d = .ok v) ∧
      (∀ k : Nat, ((It.increment^[k]) first).equal last = true ↔ k = e) := by
  obtain ⟨s, ss, b, bs, hd⟩ := wellShaped_cons (handle_wellShaped hr h) he
  rw [hd]
  refine ⟨b, _, _, rfl, begin_cons _ _ _ _ _ _, end_cons _ _ _ _ _ _, rfl, ?_, ?_, ?_⟩
  · simp [It.sub, It.distanceTo]
  · intro dbg k hk
    exact ⟨rfl, _, It.deref_in dbg _ e es s ss b bs k hk⟩
  · intro k
    have : ∀ (k : Nat) (i : It), (It.increment^[k]) i = ⟨i.idx + k, i.d⟩ := by
      intro k
      induction k with
      | zero => intro i; simp
      | succ k ih => intro i; rw [Function.iterate_succ_apply, ih]; simp [It.increment]; ring
    rw [this, It.equal_iff]
    simp
    
/-- **C26.** The loop `for (it = begin(); it != end(); ++it)` terminates and produces exactly
`a[base], a[base+1], ..., a[base+size-1]`. -/
theorem C26_loop_produces_values {n : Nat} {root : ARef} (hr : Reachable n root) {d : Desc} (h : Handle root d)
    (dbg : Bool) (e : Nat) (es : List Nat) (he : d.extents = e :: es) (fuel : Nat) (hf : e ≤ fuel) :
    ∃ first last vs, d.begin = .ok first ∧ d.end = .ok last ∧ iterLoop dbg fuel first last = .ok (some vs) ∧
      vs.map Res.ok = values dbg d := by
  obtain ⟨s, ss, b, bs, hd⟩ := wellShaped_cons (handle_wellShaped hr h) he
  rw [hd]
  have := iterLoop_spec dbg d.base e es s ss b bs fuel 0 (by omega) (by omega)
  simp only [Nat.cast_zero, add_zero, Nat.sub_zero] at this
  refine ⟨_, _, _, begin_cons _ _ _ _ _ _, end_cons _ _ _ _ _ _, this, ?_⟩
  simp only [values, List.map_map, ← List.range_eq_range']
  apply List.map_congr_left
  intro k hk
  have := It.deref_in dbg d.base e es s ss b bs k (by simpa using hk)
  exact this.symm

/-- **C27.** Iterator arithmetic obeys the random-access laws. -/
theorem C27_iterator_laws (it : It) (m k : Int) :
    (it.advance m).advance k = it.advance (m + k) ∧ (it.advance k).advance (-k) = it ∧
    (it.advance k).sub it = k ∧ it.increment = it.advance 1 ∧ it.decrement = it.advance (-1) ∧
    it.increment.decrement = it ∧ it.decrement.increment = it ∧
    (it.advance k).distanceTo (it.advance m) = m - k := by
  refine ⟨?_, ?_, ?_, rfl, ?_, ?_, ?_, ?_⟩ <;>
    simp [It.advance, It.sub, It.distanceTo, It.increment, It.decrement] <;> ring

/-- **C27.** Two iterators obtained from one array by any walks (begin or end plus any offset) are equal iff they are at the
same position, and `<` agrees with positions. -/
theorem C27_iterator_order {d : Desc} {x y : It} (hx : d.begin = .ok x) (hy : d.end = .ok y) (m k : Int) :
    ((x.advance m).equal (x.advance k) = true ↔ m = k) ∧
    ((x.advance m).lt (x.advance k) = true ↔ m < k) ∧
    ((x.advance m).sub (x.advance k) = m - k) ∧
    (∀ e, d.size = .ok e → ((x.advance m).equal (y.advance k) = true ↔ m = k + (e : Int)) ∧
      ((x.advance m).lt (y.advance k) = true ↔ m < k + (e : Int)) ∧ (y.advance k).sub (x.advance m) = (e : Int) + k - m) := by
  obtain ⟨p, es, ss, bs⟩ := d
  match es, bs, hx, hy with
  | e :: es, b :: bs, hx, hy =>
    rw [begin_cons] at hx; rw [end_cons] at hy
    cases hx; cases hy
    refine ⟨?_, ?_, ?_, ?_⟩
    · rw [It.equal_iff]; simp [It.advance]
    · simp [It.lt, It.distanceTo, It.advance]
    · simp [It.sub, It.distanceTo, It.advance]
    · intro e' he'
      simp only [Desc.size, Res.get, List.getElem?_cons_zero, Res.ok.injEq] at he'
      subst he'
      refine ⟨?_, ?_, ?_⟩
      · rw [It.equal_iff]; simp [It.advance]; omega
      · simp [It.lt, It.distanceTo, It.advance]; omega
      · simp [It.sub, It.distanceTo, It.advance]; ring
  | [], b :: bs, hx, hy => simp [Desc.end, Res.get] at hy
  | es, [], hx, hy => simp [Desc.begin, Res.get] at hx

/-- **C28.** Nested iteration over any array, subarray or view visits exactly the in-range elements, in lexicographic
index order. -/
theorem C28_nested_iteration {n : Nat} {root : ARef} (hr : Reachable n root) {d : Desc} (h : Handle root d)
    (dbg : Bool) (fuel : Nat) (hf : ∀ e ∈ d.extents, e ≤ fuel) :
    nestedLoop dbg fuel d.extents.length d = .ok (some ((allIdx d.bases d.extents).map (address d))) ∧
    ((allIdx d.bases d.extents).map (address d)).Nodup ∧
    (∀ idx, idx ∈ allIdx d.bases d.extents ↔ InBox d.bases d.extents idx) := by
  obtain ⟨hw, f, hf', hinj⟩ := h.embedding hr.wf
  refine ⟨nestedLoop_spec dbg fuel d hw hf, ?_, mem_allIdx _ _⟩
  apply List.Nodup.map_on _ (allIdx_nodup _ _)
  intro x hx y hy hxy
  rw [mem_allIdx] at hx hy
  obtain ⟨a1, a2⟩ := hf' x hx
  obtain ⟨b1, b2⟩ := hf' y hy
  rw [a2, b2] at hxy
  apply hinj x y hx hy
  by_contra hne
  obtain ⟨p, q, hp, hq, hpq⟩ := C02_distinct_elements hr true _ _ a1 b1 hne
  rw [hr.wf.paren_ok true a1] at hp
  rw [hr.wf.paren_ok true b1] at hq
  cases hp; cases hq
  exact hpq hxy

/-- **C28.** For an array, nested iteration visits each address of `[data(), data()+num_elements())` exactly once. -/
theorem C28_array_covers_block {n : Nat} {a : ARef} (ha : Reachable n a) (dbg : Bool) (fuel : Nat)
    (hf : ∀ e ∈ a.extents, e ≤ fuel) :
    ∃ visited, nestedLoop dbg fuel a.desc.extents.length a.desc = .ok (some visited) ∧
      visited.Perm ((List.range a.numElements).map (fun (k : Nat) => a.data.add (k : Int))) := by
  obtain ⟨h1, h2, h3⟩ := C28_nested_iteration ha (.array) dbg fuel hf
  refine ⟨_, h1, ?_⟩
  have hnd : ((List.range a.numElements).map (fun (k : Nat) => a.data.add (k : Int))).Nodup := by
    apply List.Nodup.map_on _ List.nodup_range
    intro x _ y _ hxy
    have := (Ptr.add_inj _ _ _).mp hxy
    exact_mod_cast this
  rw [List.perm_ext_iff_of_nodup h2 hnd]
  intro p
  constructor
  · intro hp
    obtain ⟨idx, hidx, rfl⟩ := List.mem_map.mp hp
    rw [h3] at hidx
    obtain ⟨k, hk, hpk⟩ := C01_addressing_in_block ha true idx hidx
    rw [ha.wf.paren_ok true hidx] at hpk
    injection hpk with hpk
    exact List.mem_map.mpr ⟨k, by simpa using hk, hpk.symm⟩
  · intro hp
    obtain ⟨k, hk, rfl⟩ := List.mem_map.mp hp
    obtain ⟨idx, ⟨hidx, hpk⟩, _⟩ := C03_every_element_addressable ha true k (by simpa using hk)
    rw [ha.wf.paren_ok true hidx] at hpk
    exact List.mem_map.mpr ⟨idx, (h3 idx).mpr hidx, by injection hpk⟩

/-- **C29.** `rbegin()..rend()` yields the values of `begin()..end()` in reverse order. -/
theorem C29_reverse_iteration {n : Nat} {root : ARef} (hr : Reachable n root) {d : Desc} (h : Handle root d)
    (dbg : Bool) (e : Nat) (es : List Nat) (he : d.extents = e :: es) (fuel : Nat) (hf : e ≤ fuel) :
    ∃ first last rfirst rlast vs, d.begin = .ok first ∧ d.end = .ok last ∧ d.rbegin = .ok rfirst ∧ d.rend = .ok rlast ∧
      iterLoop dbg fuel first last = .ok (some vs) ∧ riterLoop dbg fuel rfirst rlast = .ok (some vs.reverse) ∧
      vs.length = e := by
  obtain ⟨s, ss, b, bs, hd⟩ := wellShaped_cons (handle_wellShaped hr h) he
  rw [hd]
  have h1 := iterLoop_spec dbg d.base e es s ss b bs fuel 0 (by omega) (by omega)
  have h2 := riterLoop_spec dbg d.base e es s ss b bs fuel e (by omega) hf
  simp only [Nat.cast_zero, add_zero, Nat.sub_zero, ← List.range_eq_range'] at h1
  refine ⟨_, _, ⟨⟨b + (e : Int), _⟩⟩, ⟨⟨b, _⟩⟩, _, begin_cons _ _ _ _ _ _, end_cons _ _ _ _ _ _, rfl, rfl, h1, h2, by simp⟩

/-- **C29.** Reverse iterators obey the random-access laws: with `r` the reverse iterator `k` steps behind `rbegin()`, `*r` is the `k`-th value from the
back; `++`, `--`, `+=` move by 1, -1, n; `==`, `<`, `-` and `[]` agree with positions; `r.base()` refers behind `*r`; `rend()` is `size()` steps behind `rbegin()`. -/
theorem C29_reverse_iterator_laws {n : Nat} {root : ARef} (hr : Reachable n root) {d : Desc} (h : Handle root d)
    (e : Nat) (es : List Nat) (he : d.extents = e :: es) :
    ∃ first rfirst rlast b, d.begin = .ok first ∧ d.rbegin = .ok rfirst ∧ d.rend = .ok rlast ∧ d.bases.head? = some b ∧
      rlast = rfirst.advance (e : Int) ∧ rlast.base = first ∧
      (∀ dbg (k : Nat), k < e → (rfirst.advance k).deref dbg = access dbg (b + (e : Int) - 1 - (k : Int)) d ∧
        ∃ v, (rfirst.advance k).deref dbg = .ok v) ∧
      (∀ k : Int, (rfirst.advance k).base = first.advance ((e : Int) - k)) ∧
      (∀ k : Int, (rfirst.advance k).increment = rfirst.advance (k + 1) ∧ (rfirst.advance k).decrement = rfirst.advance (k - 1)) ∧
      (∀ k m : Int, (rfirst.advance k).advance m = rfirst.advance (k + m) ∧
        ((rfirst.advance k).equal (rfirst.advance m) = true ↔ k = m) ∧ ((rfirst.advance k).lt (rfirst.advance m) = true ↔ k < m) ∧
        (rfirst.advance k).sub (rfirst.advance m) = k - m ∧
        ∀ dbg, (rfirst.advance k).index dbg m = (rfirst.advance (k + m)).deref dbg) := by
  obtain ⟨s, ss, b, bs, hd⟩ := wellShaped_cons (handle_wellShaped hr h) he
  rw [hd]
  refine ⟨⟨b, _⟩, ⟨⟨b + (e : Int), _⟩⟩, ⟨⟨b, _⟩⟩, b, begin_cons _ _ _ _ _ _, rfl, rfl, rfl, ?_, rfl, ?_, ?_, ?_, ?_⟩
  · simp [RIt.advance, It.advance]
  · intro dbg k hk
    have h1 : (⟨⟨b + (e : Int), ⟨d.base, e :: es, s :: ss, b :: bs⟩⟩⟩ : RIt).advance (k : Int) =
        ⟨⟨b + (e : Int) + -(k : Int), ⟨d.base, e :: es, s :: ss, b :: bs⟩⟩⟩ := rfl
    rw [h1]
    have h2 := It.deref_in dbg d.base e es s ss b bs (e - 1 - k) (by omega)
    rw [show b + ((e - 1 - k : Nat) : Int) = b + (e : Int) + -(k : Int) - 1 by omega] at h2
    refine ⟨?_, _, h2⟩
    show access dbg (b + (e : Int) + -(k : Int) - 1) (⟨d.base, e :: es, s :: ss, b :: bs⟩ : Desc) = _
    rw [show b + (e : Int) + -(k : Int) - 1 = b + (e : Int) - 1 - (k : Int) by omega]
  · intro k
    simp [RIt.advance, It.advance]; ring
  · intro k
    constructor
    · simp [RIt.advance, RIt.increment, It.advance, It.decrement]; ring
    · simp [RIt.advance, RIt.decrement, It.advance, It.increment]; ring
  · intro k m
    have h1 : ∀ x : RIt, (x.advance k).advance m = x.advance (k + m) := by
      intro x; simp [RIt.advance, It.advance]; ring
    refine ⟨h1 _, ?_, ?_, ?_, ?_⟩
    · simp only [RIt.equal, It.equal_iff, RIt.advance, It.advance]
      simp
    · simp [RIt.lt, RIt.distanceTo, RIt.advance, It.advance, It.distanceTo]
    · simp [RIt.sub, RIt.distanceTo, RIt.advance, It.advance, It.distanceTo]; ring
    · intro dbg
      unfold RIt.index
      rw [h1 _]

/-- **C26, C27.** `it[n]` is `*(it + n)`: for `begin()`, the `n`-th value. -/
theorem C27_iterator_index {n : Nat} {root : ARef} (hr : Reachable n root) {d : Desc} (h : Handle root d)
    (e : Nat) (es : List Nat) (he : d.extents = e :: es) :
    ∃ first last b, d.begin = .ok first ∧ d.end = .ok last ∧ d.bases.head? = some b ∧
      ∀ dbg (k : Nat), k < e → first.index dbg (k : Int) = access dbg (b + (k : Int)) d ∧
        last.index dbg ((k : Int) - (e : Int)) = access dbg (b + (k : Int)) d := by
  obtain ⟨s, ss, b, bs, hd⟩ := wellShaped_cons (handle_wellShaped hr h) he
  rw [hd]
  refine ⟨_, _, b, begin_cons _ _ _ _ _ _, end_cons _ _ _ _ _ _, rfl, fun dbg k hk => ⟨rfl, ?_⟩⟩
  show access dbg (b + (e : Int) + ((k : Int) - (e : Int))) (⟨d.base, e :: es, s :: ss, b :: bs⟩ : Desc) = _
  rw [show b + (e : Int) + ((k : Int) - (e : Int)) = b + (k : Int) by omega]

/-- Non-vacuity: the last value of the first dimension of `exArr` through `rbegin()` and `end()[-1]`. -/
example : ∃ r l, exArr.desc.rbegin = .ok r ∧ exArr.desc.end = .ok l ∧ r.deref true = l.index true (-1) ∧ ∃ v, r.deref true = .ok v :=
  ⟨_, _, rfl, rfl, rfl, _, rfl⟩

/-- Non-vacuity: iterating over the two-level handle of `exHandle`. -/
example : ∃ v, Handle exArr v ∧ v.extents = [3, 2] ∧
    nestedLoop true 3 2 v = .ok (some ([⟨7, 23⟩, ⟨7, 17⟩, ⟨7, 22⟩, ⟨7, 16⟩, ⟨7, 21⟩, ⟨7, 15⟩])) := by
  obtain ⟨v, h, hx, hh⟩ := exHandle
  have : v = theView exView exArr.desc := (genView_ok (exArr_reachable.wf.wellShaped) rfl h).2.2
  subst this
  exact ⟨_, hh, hx, by decide⟩

/-! ### Instances: the theorems applied to concrete cases, whose hypotheses are thereby met -/

example := C26_iterator_range exArr_reachable .array 2 [3, 4] rfl
example := C26_loop_produces_values exArr_reachable .array true 2 [3, 4] rfl 2 (le_refl _)
example := C27_iterator_order (d := exArr.desc) rfl rfl 1 2
example := C28_nested_iteration exArr_reachable .array true 4 (by decide)
example := C28_array_covers_block exArr_reachable true 4 (by decide)
example := C29_reverse_iteration exArr_reachable .array true 2 [3, 4] rfl 2 (le_refl _)
example := C29_reverse_iterator_laws exArr_reachable .array 2 [3, 4] rfl

/- end of instances -/

end MultiArray.Props
