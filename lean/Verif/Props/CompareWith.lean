import Verif.Lemmas.CompareWith
import Verif.Props.Compare
import Verif.Props.Work
import Mathlib.Data.List.TakeWhile

/- Property theorems C85: comparison operators with any element comparison, and the number of element comparisons they make. -/
set_option autoImplicit false

namespace MultiArray.Props
open MultiArray MultiArray.Spec
variable {T : Type}

/-- **C85.** `a == b` calls the element type's `==` on the elements at equal positions, in lexicographic order of positions, each at most once, and stops at the first pair that
differs; if the shapes differ no element is touched.  For every element comparison: it may have effects on memory, and throw.  `a != b` does the same and negates. -/
theorem C85_equality_any {n m m' : Nat} {r1 r2 : ARef} (h1 : Reachable m r1) (h2 : Reachable m' r2) {a b : Desc} (ha : Handle r1 a) (hb : Handle r2 b)
    (hna : a.extents.length = n) (hnb : b.extents.length = n) (dbg : Bool) (elt : Ptr → Ptr → Exec T Bool) :
    equalRefX dbg elt n a b = (if a.extents = b.extents then flatEqual elt a b (positions a.extents) else pure false) ∧
    notEqualRefX dbg elt n a b = (if a.extents = b.extents then (do pure (!(← flatEqual elt a b (positions a.extents)))) else pure true) := by
  have key : equalRefX dbg elt n a b = (if a.extents = b.extents then flatEqual elt a b (positions a.extents) else pure false) := by
    by_cases he : a.extents = b.extents
    · rw [if_pos he, equalRefX_eq dbg elt n a b (handle_wellShaped h1 ha) (handle_wellShaped h2 hb) hna he, flatEqual_eq, positions_eq]
    · rw [if_neg he]
      match n, hna, hnb with
      | 0, hna, hnb => rw [List.length_eq_zero_iff] at hna hnb; exact absurd (hna.trans hnb.symm) he
      | n + 1, _, _ =>
        unfold equalRefX
        rw [if_neg he]
  refine ⟨key, ?_⟩
  unfold notEqualRefX
  rw [key]
  split
  · rfl
  · rw [pure_bind]; rfl

/-- **C85.** `a < b` is the comparison of the two nested lists of elements: at each common row first `row(a) < row(b)`, if false `row(b) < row(a)`, if false the next
row - for every element comparison: it may have effects on memory, and throw.  `>` swaps the operands, `<=` and `>=` negate `>` and `<`. -/
theorem C85_less_any {n m m' : Nat} {r1 r2 : ARef} (h1 : Reachable m r1) (h2 : Reachable m' r2) {a b : Desc} (ha : Handle r1 a) (hb : Handle r2 b)
    (hna : a.extents.length = n) (hnb : b.extents.length = n) (dbg : Bool) (elt : Ptr → Ptr → Exec T Bool) :
    let A := nested n a.extents (posAddr a)
    let B := nested n b.extents (posAddr b)
    lessRefX dbg elt n a b = nestedLess elt n A B ∧ greaterRefX dbg elt n a b = nestedLess elt n B A ∧
      lessEqRefX dbg elt n a b = (do pure (!(← nestedLess elt n B A))) ∧ greaterEqRefX dbg elt n a b = (do pure (!(← nestedLess elt n A B))) := by
  intro A B
  have w1 := handle_wellShaped h1 ha
  have w2 := handle_wellShaped h2 hb
  have e1 : lessRefX dbg elt n a b = nestedLess elt n A B := lessRefX_eq dbg elt n a b w1 w2 hna hnb
  have e2 : lessRefX dbg elt n b a = nestedLess elt n B A := lessRefX_eq dbg elt n b a w2 w1 hnb hna
  exact ⟨e1, e2, by rw [lessEqRefX, greaterRefX, e2], by rw [greaterEqRefX, e1]⟩

/-- **C85.** What "`k` operations that may throw, then return `r`" means: exactly `k` operations are performed (or the exception of the first that throws propagates), the
result is `r`, and memory is untouched, also if an exception propagates. -/
theorem C85_times_meaning {α : Type} (k : Nat) (r : α) (s : St T) :
    Performs k s ((do mayThrowTimes k; pure r : Exec T α) s) ∧
    ((∃ s', (do mayThrowTimes k; pure r : Exec T α) s = .ok r s' ∧ s'.heap = s.heap ∧ s'.next = s.next) ∨
      ∃ s', (do mayThrowTimes k; pure r : Exec T α) s = .throw s' ∧ s'.heap = s.heap ∧ s'.next = s.next) := by
  have hd : ((∃ s', (do mayThrowTimes k; pure r : Exec T α) s = .ok r s' ∧ s'.heap = s.heap ∧ s'.next = s.next) ∨
      ∃ s', (do mayThrowTimes k; pure r : Exec T α) s = .throw s' ∧ s'.heap = s.heap ∧ s'.next = s.next) := by
    rcases mayThrowTimes_heap k s with ⟨s', e1, e2⟩ | ⟨s', e1, e2⟩
    · exact .inl ⟨s', by rw [Exec.bind_ok e1]; rfl, e2⟩
    · exact .inr ⟨s', by rw [Exec.bind_throw e1], e2⟩
  refine ⟨Performs.of_takes ?_ ?_, hd⟩
  · have h1 : ∀ k, Takes k (mayThrowTimes k : Exec T Unit) := by
      intro k
      induction k with
      | zero => exact Takes.pure _
      | succ k ih =>
        refine (Takes.bind (k := 1) (Takes.one ?_) (fun _ => ih)).cast (by omega)
        intro s
        unfold mayThrow
        rcases hs : s.sched with _ | ⟨_ | j, fs⟩
        · exact ⟨by simp, by rw [hs]; rfl⟩
        · exact ⟨by simp, rfl⟩
        · exact ⟨j, fs, rfl, rfl⟩
    exact (Takes.bind (m := 0) (h1 k) (fun _ => Takes.pure _)) s
  · rcases hd with ⟨s', h, _⟩ | ⟨s', h, _⟩
    · exact .inl ⟨r, s', h⟩
    · exact .inr ⟨s', h⟩

/-- **C85.** For an element `==` that leaves memory alone and may throw: `a == b` and `a != b` make exactly `equalCost` element comparisons (none if the shapes differ, else up to
and including the first differing position), and return what C40 says. -/
theorem C85_equality_count (s : St T) (n : Nat) (a b : Desc) (ha : Readable s n a) (hb : Readable s n b) (dbg : Bool)
    (eq : T → T → Bool) (f g : List Nat → T) (hf : Contents s a f) (hg : Contents s b g) :
    ∃ r, equalRef dbg eq s n a b = .ok r ∧
      equalRefX dbg (cmpElem eq) n a b s = (do mayThrowTimes (equalCost eq a.extents b.extents f g); pure r : Exec T Bool) s ∧
      notEqualRefX dbg (cmpElem eq) n a b s = (do mayThrowTimes (equalCost eq a.extents b.extents f g); pure (!r) : Exec T Bool) s := by
  refine ⟨_, equalRef_spec dbg eq s n a b ha.ws hb.ws ha.len hb.len f g hf hg, ?_⟩
  have key : Counts s.heap (equalCost eq a.extents b.extents f g)
      (decide (a.extents = b.extents) && (allPos a.extents).all (fun k => eq (f k) (g k))) (equalRefX dbg (cmpElem eq) n a b) := by
    unfold equalCost
    by_cases he : a.extents = b.extents
    · rw [if_pos he, equalRefX_eq dbg _ n a b ha.ws hb.ws ha.len he]
      refine (Counts.allSeq eq _ ((allPos a.extents).map (fun k => (f k, g k))) ?_).cast ?_ ?_
      · rw [List.forall₂_map_left_iff, List.forall₂_map_right_iff, List.forall₂_same]
        intro k hk
        rw [mem_allPos] at hk
        exact ⟨hf k hk, hg k (he ▸ hk)⟩
      · rw [List.length_map, List.takeWhile_map, List.length_map, positions_eq, allPos_length]
        rfl
      · simp [he, List.all_map, Function.comp_def]
    · rw [if_neg he]
      have hn : n ≠ 0 := by
        rintro rfl
        have h1 := ha.len; have h2 := hb.len
        rw [List.length_eq_zero_iff] at h1 h2
        exact he (h1.trans h2.symm)
      match n, hn with
      | n + 1, _ =>
        unfold equalRefX
        rw [if_neg he]
        simpa [he] using Counts.pure s.heap false
  exact ⟨key s rfl, key.not s rfl⟩

/-- **C85.** For an element `<` that leaves memory alone and may throw: `a < b`, `a >= b` make exactly `lessCost (a, b)` element comparisons and `a > b`, `a <= b` exactly
`lessCost (b, a)`, and they return what C41 and C42 say. -/
theorem C85_less_count (s : St T) (n : Nat) (a b : Desc) (ha : Readable s n a) (hb : Readable s n b) (dbg : Bool)
    (lt : T → T → Bool) (f g : List Nat → T) (hf : Contents s a f) (hg : Contents s b g) :
    let A := nested n a.extents f
    let B := nested n b.extents g
    ∃ l r, lessRef dbg lt s n a b = .ok l ∧ lessRef dbg lt s n b a = .ok r ∧
      lessRefX dbg (cmpElem lt) n a b s = (do mayThrowTimes (lessCost lt n A B); pure l : Exec T Bool) s ∧
      greaterEqRefX dbg (cmpElem lt) n a b s = (do mayThrowTimes (lessCost lt n A B); pure (!l) : Exec T Bool) s ∧
      greaterRefX dbg (cmpElem lt) n a b s = (do mayThrowTimes (lessCost lt n B A); pure r : Exec T Bool) s ∧
      lessEqRefX dbg (cmpElem lt) n a b s = (do mayThrowTimes (lessCost lt n B A); pure (!r) : Exec T Bool) s := by
  intro A B
  have key := fun (x y : Desc) (fx fy : List Nat → T) (hx : Readable s n x) (hy : Readable s n y) (hfx : Contents s x fx)
    (hfy : Contents s y fy) => (show Counts s.heap (lessCost lt n (nested n x.extents fx) (nested n y.extents fy))
      (lexVal lt n (nested n x.extents fx) (nested n y.extents fy)) (lessRefX dbg (cmpElem lt) n x y) by
    rw [lessRefX_eq dbg _ n x y hx.ws hy.ws hx.len hy.len, lessCost_eq]
    exact Counts.nestedLess lt n _ _ hx.len hy.len _ _ fx fy hfx hfy)
  have k1 := key a b f g ha hb hf hg
  have k2 := key b a g f hb ha hg hf
  exact ⟨_, _, lessRef_spec dbg lt s n a b ha.ws hb.ws ha.len hb.len f g hf hg, lessRef_spec dbg lt s n b a hb.ws ha.ws hb.len ha.len g f hg hf,
    k1 s rfl, k1.not s rfl, k2 s rfl, k2.not s rfl⟩

/-- **C85.** `a == b` makes at most one comparison per element, and exactly one per element if the arrays are equal; `a < b` makes at most `2^n` comparisons per element of the common
shape in `n` dimensions, -/
theorem C85_bounds (eq lt : T → T → Bool) (n : Nat) (es es' : List Nat) (h : es.length = n) (h' : es'.length = n) (f g : List Nat → T) :
    equalCost eq es es' f g ≤ es.prod ∧
    (es = es' → (∀ k, InShape es k → eq (f k) (g k) = true) → equalCost eq es es' f g = es.prod) ∧
    lessCost lt n (nested n es f) (nested n es' g) ≤ 2 ^ n * (List.zipWith min es es').prod := by
  refine ⟨?_, ?_, ?_⟩
  · unfold equalCost; split <;> omega
  · intro he hk
    unfold equalCost
    rw [if_pos he, List.takeWhile_eq_self_iff.mpr, positions_eq, allPos_length]
    · omega
    · intro k hk'
      rw [positions_eq, mem_allPos] at hk'
      exact hk k hk'
  · rw [lessCost_eq]; exact costVal_le lt n es es' h h' f g

/-- **C85.** and the factor `2^n` is attained whenever the arrays have the same shape and equivalent elements (in particular `a < a`): the number of element comparisons of `<`, `>`, `<=`, `>=` is
exponential in the number of dimensions. -/
theorem C85_less_exponential (lt : T → T → Bool) (n : Nat) (es : List Nat) (h : es.length = n) (f g : List Nat → T)
    (heq : ∀ k, InShape es k → lt (f k) (g k) = false ∧ lt (g k) (f k) = false) :
    lessCost lt n (nested n es f) (nested n es g) = 2 ^ n * es.prod := by
  rw [lessCost_eq]; exact (costVal_equiv lt n es h f g heq).1

/-- Non-vacuity: the 2x3x4 example compared with itself: `==` makes 24 element comparisons, `<` makes 192 - the 192nd of them can throw. -/
example : Readable exSt2 3 exArr.desc ∧
    (match equalRefX true (cmpElem (fun x y => decide (x = y))) 3 exArr.desc exArr.desc { exSt2 with sched := List.replicate 24 none ++ [some 0] } with
      | .ok r s' => decide (r = true ∧ s'.sched = [some 0])
      | _ => false) = true ∧
    (match lessRefX true (cmpElem (fun x y => decide (x < y))) 3 exArr.desc exArr.desc { exSt2 with sched := List.replicate 191 none ++ [some 0] } with
      | .throw s' => decide (s'.sched = [])
      | _ => false) = true ∧
    (match lessRefX true (cmpElem (fun x y => decide (x < y))) 3 exArr.desc exArr.desc { exSt2 with sched := List.replicate 192 none ++ [some 0] } with
      | .ok r s' => decide (r = false ∧ s'.sched = [some 0])
      | _ => false) = true := by
  refine ⟨⟨3, exArr, exArr_reachable, .array, ?_, rfl⟩, ?_, ?_, ?_⟩
  · intro k hk
    change k < 24 at hk
    refine ⟨k, ?_⟩
    interval_cases k <;> rfl
  all_goals decide +kernel

/-- Non-vacuity of the claims about comparisons with effects: an element comparison that overwrites the element it has just compared (both operands the same array). -/
example : Reachable 3 exArr ∧ Handle exArr exArr.desc ∧
    ∃ s', equalRefX true (fun p q => do let x ← load p; let y ← load q; assignCell q (x + y + 1); pure (decide (x = y))) 3 exArr.desc exArr.desc exSt2 = .ok true s' ∧
      s'.get? ⟨7, 5⟩ = some 11 := by
  refine ⟨exArr_reachable, .array, _, rfl, rfl⟩

/-! ### Instances: the theorems applied to concrete cases, whose hypotheses are thereby met -/

example := C85_equality_any exArr_reachable exArr2_reachable .array .array rfl rfl true (cmpElem (fun x y : Nat => decide (x = y)))
example := C85_less_any exArr_reachable exArr2_reachable .array .array rfl rfl true (cmpElem (fun x y : Nat => decide (x < y)))
example : ∃ f g : List Nat → Nat, ∃ r, equalRef true (fun x y => decide (x = y)) exSt2 3 exArr.desc exArr2.desc = .ok r ∧
    equalRefX true (cmpElem (fun x y => decide (x = y))) 3 exArr.desc exArr2.desc exSt2 = (do
      mayThrowTimes (equalCost (fun x y => decide (x = y)) exArr.desc.extents exArr2.desc.extents f g); pure r : Exec Nat Bool) exSt2 := by
  obtain ⟨f, hf⟩ := exArr_readable.contents
  obtain ⟨g, hg⟩ := exArr2_readable.contents
  obtain ⟨r, h1, h2, _⟩ := C85_equality_count exSt2 3 _ _ exArr_readable exArr2_readable true (fun x y => decide (x = y)) f g hf hg
  have := C85_less_count exSt2 3 _ _ exArr_readable exArr2_readable true (fun x y => decide (x < y)) f g hf hg
  exact ⟨f, g, r, h1, h2⟩
example := C85_bounds (fun x y : Nat => decide (x = y)) (fun x y => decide (x < y)) 3 [2, 3, 4] [2, 1, 5] rfl rfl
  (fun k => k.sum) (fun k => k.length)
example := C85_times_meaning 2 true { exSt2 with sched := [none, some 4] }

/- end of instances -/

end MultiArray.Props
