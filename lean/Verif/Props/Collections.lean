import Verif.Props.Release
import Verif.Props.Resize

/- Property theorems C90: collections passed as arguments - what is read of them, and what happens when their length is not the number of dimensions. -/
set_option autoImplicit false

namespace MultiArray.Props
open MultiArray MultiArray.Spec
variable {T : Type}

private theorem copyN_take {α : Type} (l : List α) (n : Nat) : copyN l n = copyN (l.take n) n := by
  unfold copyN
  by_cases h : n ≤ l.length
  · rw [if_pos h, if_pos (by rw [List.length_take]; omega), List.take_take, Nat.min_self]
  · rw [if_neg h, if_neg (by rw [List.length_take]; omega)]

private theorem copyN_short {α : Type} {l : List α} {n : Nat} (h : l.length < n) : copyN l n = .ub := by
  unfold copyN; rw [if_neg (by omega)]

private theorem offsetLoop_take (n : Nat) : ∀ (l ss : List Int) (o : Int), offsetLoop n l ss o = offsetLoop n (l.take n) ss o := by
  induction n with
  | zero => intros; rfl
  | succ n ih =>
    intro l ss o
    cases l with
    | nil => rfl
    | cons i is =>
      cases ss with
      | nil => rfl
      | cons s ss => exact ih is ss _

private theorem checkIndices_take (dbg : Bool) : ∀ (es : List Nat) (bs l : List Int), checkIndices dbg es bs l = checkIndices dbg es bs (l.take es.length) := by
  intro es
  induction es with
  | nil => intros; rfl
  | cons e es ih =>
    intro bs l
    cases bs with
    | nil => cases l <;> rfl
    | cons b bs =>
      cases l with
      | nil => rfl
      | cons i is =>
        simp only [List.length_cons, List.take_succ_cons, checkIndices]
        rw [← ih bs is]

private theorem paren_take (dbg : Bool) (d : Desc) (l : List Int) : accessElement dbg l d = accessElement dbg (l.take d.extents.length) d := by
  unfold accessElement
  rw [← checkIndices_take, ← offsetLoop_take]

/-- **C90.** The constructors, `reindex`, `operator()` and `resize` that take a collection look at its first `NumDims` entries only: what follows them has no effect, on no outcome
(value, exception, failed assertion), in debug and release builds. -/
theorem C90_only_the_first_entries (dbg : Bool) (dflt : T) (n : Nat) (base : Ptr) (so : StorageOrder) (al : Nat) (a : ARef) (v : View) (d : Desc) (m : MArr)
    (ls : List Nat) (li : List Int) (x : T) (s : St T) :
    ARef.ofExtents n base ls so = ARef.ofExtents n base (ls.take n) so ∧
    MArr.mkExtents dflt n ls so al s = MArr.mkExtents dflt n (ls.take n) so al s ∧
    a.reindexList li = a.reindexList (li.take a.numDims) ∧
    v.reindexList li = v.reindexList (li.take v.numDims) ∧
    d.paren dbg li = d.paren dbg (li.take d.numDims) ∧
    readElem dbg d li s = readElem dbg d (li.take d.numDims) s ∧
    writeElem dbg d li x s = writeElem dbg d (li.take d.numDims) x s ∧
    MArr.resizeExtents dbg dflt ls m s = MArr.resizeExtents dbg dflt (ls.take m.ref.numDims) m s := by
  have h1 : ARef.ofExtents n base ls so = ARef.ofExtents n base (ls.take n) so := by
    unfold ARef.ofExtents ARef.init; rw [← copyN_take]
  have h2 : ARef.ofExtents n Ptr.null ls so = ARef.ofExtents n Ptr.null (ls.take n) so := by
    unfold ARef.ofExtents ARef.init; rw [← copyN_take]
  refine ⟨h1, by unfold MArr.mkExtents; rw [h2], by unfold ARef.reindexList; rw [← copyN_take], by unfold View.reindexList; rw [← copyN_take], paren_take dbg d li,
    by unfold readElem; rw [paren_take dbg d li]; rfl, by unfold writeElem; rw [paren_take dbg d li]; rfl, ?_⟩
  unfold MArr.resizeExtents
  show Member.bind Member.self _ m s = Member.bind Member.self _ m s
  unfold Member.bind Member.self
  show (Member.run (Exec.lift (copyN ls m.ref.numDims)) >>= _ : Member T Unit) m s = (Member.run (Exec.lift (copyN (ls.take m.ref.numDims) m.ref.numDims)) >>= _ : Member T Unit) m s
  rw [← copyN_take]

private theorem checkIndices_short (dbg : Bool) : ∀ (es : List Nat) (bs l : List Int), l.length < es.length →
    (checkIndices dbg es bs l = .ok () → dbg = false) ∧ (InBox (bs.take l.length) (es.take l.length) l → checkIndices dbg es bs l = if dbg then .ub else .ok ()) := by
  intro es
  induction es with
  | nil => intro bs l h; simp at h
  | cons e es ih =>
    intro bs l h
    cases bs with
    | nil => cases l <;> cases dbg <;> simp [checkIndices]
    | cons b bs =>
      cases l with
      | nil => cases dbg <;> simp [checkIndices]
      | cons i is =>
        have ih := ih bs is (by simpa using h)
        cases dbg with
        | false => simp [checkIndices]
        | true =>
          simp only [checkIndices, if_true, List.length_cons, List.take_succ_cons, InBox]
          constructor
          · intro hok
            by_cases g1 : i - b ≥ 0
            · by_cases g2 : (i - b).toNat < e
              · simp only [g1, g2, decide_true, Res.assert_true, Res.bind_ok] at hok
                exact ih.1 hok
              · rw [decide_eq_true g1, decide_eq_false g2] at hok; cases hok
            · rw [decide_eq_false g1] at hok; cases hok
          · rintro ⟨g1, g2, g3⟩
            have k1 : i - b ≥ 0 := by omega
            have k2 : (i - b).toNat < e := by omega
            simp only [k1, k2, decide_true, Res.assert_true, Res.bind_ok]
            exact ih.2 g3

private theorem offsetLoop_short (n : Nat) : ∀ (l ss : List Int) (o : Int), l.length < n → offsetLoop n l ss o = .ub := by
  induction n with
  | zero => intro l ss o h; omega
  | succ n ih =>
    intro l ss o h
    cases l with
    | nil => rfl
    | cons i is =>
      cases ss with
      | nil => rfl
      | cons s ss => exact ih is ss _ (by simpa using h)

/-- **C90.** Collections that are too short are read past their end: undefined behaviour, in debug builds as well (no assertion guards the length).  Only `operator()` can stop
earlier, at the assertion on one of the indices that are there; if those are in range it is undefined too. -/
theorem C90_too_short_is_undefined (dbg : Bool) (dflt : T) (n : Nat) (base : Ptr) (so : StorageOrder) (al : Nat) (a : ARef) (v : View) (d : Desc) (m : MArr)
    (ls : List Nat) (li : List Int) (s : St T) :
    (ls.length < n → ARef.ofExtents n base ls so = .ub ∧ MArr.mkExtents dflt n ls so al s = .ub) ∧
    (li.length < a.numDims → a.reindexList li = .ub) ∧
    (li.length < v.numDims → v.reindexList li = .ub) ∧
    (li.length < d.numDims → (d.paren dbg li = .ub ∨ dbg = true ∧ d.paren dbg li = .assertFail) ∧
      (InBox (d.bases.take li.length) (d.extents.take li.length) li → d.paren dbg li = .ub)) ∧
    (ls.length < m.ref.numDims → MArr.resizeExtents dbg dflt ls m s = (.ub, m)) := by
  refine ⟨fun h => ?_, fun h => by unfold ARef.reindexList; rw [copyN_short h]; rfl, fun h => by unfold View.reindexList; rw [copyN_short h]; rfl, fun h => ?_, fun h => ?_⟩
  · have hub : ∀ p, ARef.ofExtents n p ls so = .ub := fun p => by unfold ARef.ofExtents ARef.init; rw [copyN_short h]; rfl
    refine ⟨hub base, ?_⟩
    unfold MArr.mkExtents
    rw [hub]; rfl
  · obtain ⟨c1, c2⟩ := checkIndices_short dbg d.extents d.bases li h
    have ho := offsetLoop_short d.extents.length li d.strides 0 h
    unfold Desc.paren accessElement
    rw [ho]
    constructor
    · cases hc : checkIndices dbg d.extents d.bases li with
      | ok u => exact .inl rfl
      | ub => exact .inl rfl
      | assertFail =>
        refine .inr ⟨?_, rfl⟩
        cases dbg with
        | true => rfl
        | false => revert hc; cases hd : d.extents with
          | nil => simp [checkIndices]
          | cons e es => cases d.bases <;> cases li <;> simp [checkIndices]
    · intro hin
      rw [c2 hin]
      cases dbg <;> rfl
  · unfold MArr.resizeExtents
    show Member.bind Member.self _ m s = _
    unfold Member.bind Member.self
    show (Member.run (Exec.lift (copyN ls m.ref.numDims)) >>= _ : Member T Unit) m s = _
    rw [copyN_short h]; rfl

/-- **C90.** `reshape` is different: it reads the whole collection.  A collection that is too long is written past the end of the array's own extent list: undefined, unless the assertion on the
product of its entries stops it first. -/
theorem C90_reshape_too_long (dbg : Bool) (a : ARef) (es : List Nat) (h : a.numDims < es.length) :
    a.reshape dbg es = if dbg = true ∧ es.prod ≠ a.numElements then .assertFail else .ub := by
  unfold ARef.reshape
  have hc : copyPrefix es a.extents = .ub := by
    unfold copyPrefix; rw [if_neg (by have : a.numDims = a.extents.length := rfl; omega)]
  rw [hc, product_eq]
  by_cases hp : a.numElems = es.prod
  · have hp' : ¬ (es.prod ≠ a.numElements) := fun g => g hp.symm
    rw [if_neg (fun g => hp' g.2)]
    simp [hp]
  · have hp' : es.prod ≠ a.numElements := fun g => hp g.symm
    cases dbg with
    | true => rw [if_pos ⟨rfl, hp'⟩]; simp [hp]
    | false => rw [if_neg (by simp)]; simp

/-- **C90.** A collection that is too short for `reshape`: the product of the entries that are there must be the number of elements (in debug builds); then the remaining dimensions *keep their
old extents*.  The result has the extents `es ++ (old extents behind them)`, its element at `k` is the stored element whose number is the rank of `k` in that shape, `num_elements()` is unchanged,
and all its elements lie in the storage iff the array is empty or the kept extents are all 1 (or one of them 0).  So a short collection that passes the assertion of a debug
build in general leaves an array with in-range indices outside its storage. -/
theorem C90_reshape_too_short {n : Nat} {a : ARef} (ha : Reachable n a) (dbg : Bool) (es : List Nat) (h : es.length ≤ n) :
    (dbg = true → es.prod ≠ a.numElements → a.reshape dbg es = .assertFail) ∧
    ((dbg = true → es.prod = a.numElements) → ∃ a', a.reshape dbg es = .ok a' ∧ a'.extents = es ++ a.extents.drop es.length ∧ a'.bases = a.bases ∧ a'.data = a.data ∧
      a'.numElements = a.numElements ∧
      (∀ dbg' k, InShape a'.extents k → a'.paren dbg' (atPos a'.bases k) = .ok (a.data.add (storageRank a.storage a'.extents k : Nat))) ∧
      (es.prod = a.numElements →
        ((∀ k, InShape a'.extents k → storageRank a.storage a'.extents k < a.numElements) ↔ a.numElements = 0 ∨ (a.extents.drop es.length).prod ≤ 1))) := by
  have hl : (es ++ a.extents.drop es.length).length = n := by
    rw [List.length_append, List.length_drop, ha.wf.ext_len]; omega
  have hcp : copyPrefix es a.extents = .ok (es ++ a.extents.drop es.length) := by
    unfold copyPrefix; rw [if_pos (by rw [ha.wf.ext_len]; exact h)]
  have hcp' : copyPrefix (es ++ a.extents.drop es.length) a.extents = .ok (es ++ a.extents.drop es.length) := by
    unfold copyPrefix; rw [if_pos (by rw [hl, ha.wf.ext_len]), List.drop_of_length_le (l := a.extents) (i := (es ++ a.extents.drop es.length).length) (by rw [hl, ha.wf.ext_len]), List.append_nil]
  constructor
  · rintro rfl hp
    have hp' : ¬ a.numElems = es.prod := fun g => hp g.symm
    unfold ARef.reshape
    rw [product_eq]
    simp [hp']
  · intro hp
    obtain ⟨a', h1, h2, h3, h4, h5, h6, h7⟩ := C87_reshape_unchecked ha (es ++ a.extents.drop es.length) hl
    refine ⟨a', ?_, h2, h3, h4, h5, by rw [h2]; exact h6, ?_⟩
    · rw [← h1]
      unfold ARef.reshape
      rw [hcp, hcp']
      cases dbg with
      | false => rfl
      | true =>
        have := hp rfl
        have hp' : a.numElems = product es := by rw [product_eq]; exact this.symm
        simp [hp']
    · intro hpr
      rw [h2, h7, List.prod_append, hpr]
      generalize (a.extents.drop es.length).prod = q
      generalize a.numElements = m
      constructor
      · intro hle
        rcases Nat.eq_zero_or_pos m with g | g
        · exact .inl g
        · exact .inr (by
            by_contra hq
            have : m * 2 ≤ m * q := Nat.mul_le_mul_left m (by omega)
            omega)
      · rintro (g | g)
        · subst g; simp
        · calc m * q ≤ m * 1 := Nat.mul_le_mul_left m g
            _ = m := Nat.mul_one m

/-! ### Examples: `a` is 2x3 in C order -/

/-- `reshape({6})` on a 2x3 array passes the assertion of a debug build and leaves a 6x3 array over 6 elements: reading the in-range element (5,2) is undefined.  `reshape({6,1})` is the correct call,
`reshape({6,1,1})` is undefined, `reshape({5})` is rejected. -/
example : Reachable 2 relM.ref ∧ Owns relSt 2 relM ∧
    (∃ a', relM.ref.reshape true [6] = .ok a' ∧ a'.extents = [6, 3] ∧ InBox a'.bases a'.extents [5, 2] ∧ a'.paren true [5, 2] = .ok ⟨5, 17⟩ ∧
      readElem true a'.desc [5, 2] relSt = .ub) ∧
    (∃ a', relM.ref.reshape true [6, 1] = .ok a' ∧ a'.extents = [6, 1]) ∧
    relM.ref.reshape true [6, 1, 1] = .ub ∧ relM.ref.reshape true [5] = .assertFail ∧ relM.ref.reshape true [5, 1, 1] = .assertFail :=
  ⟨relArr_reachable 5 2 3, relM_owns, ⟨_, rfl, rfl, by decide, by decide, rfl⟩, ⟨_, rfl, rfl⟩, by decide, by decide, by decide⟩

/-- Extra indices are ignored, missing ones are undefined, and an out-of-range one is reported first. -/
example : relM.ref.paren true [1, 2, 77] = relM.ref.paren true [1, 2] ∧ relM.ref.paren true [1, 2] = .ok ⟨5, 5⟩ ∧ relM.ref.paren true [1] = .ub ∧ relM.ref.paren true [4] = .assertFail ∧
    ARef.ofExtents 2 ⟨5, 0⟩ [2, 3, 9] (StorageOrder.cOrder 2) = .ok relM.ref ∧ ARef.ofExtents 2 ⟨5, 0⟩ [2] (StorageOrder.cOrder 2) = .ub :=
  ⟨by decide, by decide, by decide, by decide, by decide, by decide⟩

/-! ### Instances: the theorems applied to concrete cases, whose hypotheses are thereby met -/

example := C90_only_the_first_entries true (0 : Nat) 2 ⟨5, 0⟩ (StorageOrder.cOrder 2) 0 relM.ref ⟨⟨5, 0⟩, 0, 6, [2, 3], [3, 1], [0, 0]⟩ relM.ref.desc relM
  [2, 3, 9] [1, 2, 77] 8 relSt
example := (C90_too_short_is_undefined true (0 : Nat) 2 ⟨5, 0⟩ (StorageOrder.cOrder 2) 0 relM.ref ⟨⟨5, 0⟩, 0, 6, [2, 3], [3, 1], [0, 0]⟩ relM.ref.desc relM
  [2] [1] relSt).1 (by decide)
example := C90_reshape_too_long true relM.ref [6, 1, 1] (by decide)

/- end of instances -/

end MultiArray.Props
