import Verif.SpecStore
import Verif.Props.Compare
import Verif.Props.Store
import Verif.Lemmas.Flat

/-
Property theorems C41 and C106: for arrays of the same shape `<` and `==` are comparisons of the flat sequences of elements.
-/
set_option autoImplicit false

namespace MultiArray.Props
open MultiArray MultiArray.Spec
variable {T : Type}

theorem firstLess_of_ne (lt : T → T → Bool) (es : List Nat) (f g : List Nat → T)
    (h1 : ¬ ∃ k, FirstLess lt es f g k) (h2 : ¬ ∃ k, FirstLess lt es g f k) :
    ∀ j, InShape es j → lt (f j) (g j) = false ∧ lt (g j) (f j) = false := by
  have key : ∀ (r : Nat) (j : List Nat), InShape es j → rowMajor es j = r → lt (f j) (g j) = false ∧ lt (g j) (f j) = false := by
    intro r
    induction r using Nat.strong_induction_on with
    | _ r ih =>
      intro j hj hr
      have hb : ∀ i, InShape es i → rowMajor es i < rowMajor es j → lt (f i) (g i) = false ∧ lt (g i) (f i) = false :=
        fun i hi hlt => ih _ (by rw [← hr]; exact hlt) i hi rfl
      constructor
      · by_contra hc
        exact h1 ⟨j, hj, by simpa using hc, hb⟩
      · by_contra hc
        exact h2 ⟨j, hj, by simpa using hc, fun i hi hlt => (hb i hi hlt).symm⟩
  exact fun j hj => key _ j hj rfl

theorem valLess_iff_firstLess (lt : T → T → Bool) (n : Nat) (es : List Nat) (hn : es.length = n) (f g : List Nat → T) :
    ValLess lt n (nested n es f) (nested n es g) ↔ ∃ k, FirstLess lt es f g k := by
  induction n generalizing es f g with
  | zero =>
    match es, hn with
    | [], _ =>
      constructor
      · intro h
        refine ⟨[], trivial, h, fun j hj hlt => ?_⟩
        simp [rowMajor] at hlt
      · rintro ⟨k, hk, h, _⟩
        match k, hk with
        | [], _ => exact h
  | succ n ih =>
    match es, hn with
    | e :: es, hn =>
      have hn' : es.length = n := by simpa using hn
      have hget : ∀ (f : List Nat → T) (p : Nat), p < e →
          ((List.range e).map (fun x => nested n es (fun k => f (x :: k))))[p]? = some (nested n es (fun k => f (p :: k))) := by
        intro f p hp
        simp [List.getElem?_map, List.getElem?_range hp]
      have hget' : ∀ (f : List Nat → T) (p : Nat) x,
          ((List.range e).map (fun x => nested n es (fun k => f (x :: k))))[p]? = some x → p < e := by
        intro f p x h
        have := (List.getElem?_eq_some_iff.mp h).1
        simpa using this
      constructor
      · rintro ⟨p, h1, h2, h3, h4⟩
        rcases h4 with ⟨h4, h5⟩ | ⟨x, y, hx, hy, hxy⟩
        · simp [nested] at h4 h5; omega
        · have hp : p < e := hget' f p x hx
          have hx' := (hget f p hp).symm.trans hx
          have hy' := (hget g p hp).symm.trans hy
          cases hx'; cases hy'
          obtain ⟨k, k1, k2, k3⟩ := (ih es hn' _ _).mp hxy
          refine ⟨p :: k, ⟨hp, k1⟩, k2, fun j hj hlt => ?_⟩
          match j, hj with
          | i :: j, ⟨hi, hj⟩ =>
            rcases Nat.lt_trichotomy i p with h | h | h
            · obtain ⟨r1, r2⟩ := h1 i _ _ h (hget f i hi) (hget g i hi)
              rw [ih es hn'] at r1 r2
              exact firstLess_of_ne lt es _ _ r1 r2 j hj
            · subst h
              simp only [rowMajor] at hlt
              exact k3 j hj (by omega)
            · have := rowMajor_lt_of_head (e := e) (k := j) k1 h
              omega
      · rintro ⟨k, hk, h1, h2⟩
        match k, hk with
        | p :: k, ⟨hp, hk⟩ =>
          refine ⟨p, fun i x y hi hx hy => ?_, by simp [nested]; omega, by simp [nested]; omega, .inr ⟨_, _, hget f p hp, hget g p hp, ?_⟩⟩
          · have hie : i < e := by omega
            have hx' := (hget f i hie).symm.trans hx
            have hy' := (hget g i hie).symm.trans hy
            cases hx'; cases hy'
            rw [ih es hn', ih es hn']
            have heq : ∀ j, InShape es j → lt (f (i :: j)) (g (i :: j)) = false ∧ lt (g (i :: j)) (f (i :: j)) = false :=
              fun j hj => h2 (i :: j) ⟨hie, hj⟩ (rowMajor_lt_of_head hj hi)
            constructor
            · rintro ⟨j, hj, hl, _⟩
              have := (heq j hj).1
              simp only [] at hl
              rw [hl] at this; cases this
            · rintro ⟨j, hj, hl, _⟩
              have := (heq j hj).2
              simp only [] at hl
              rw [hl] at this; cases this
          · rw [ih es hn']
            refine ⟨k, hk, h1, fun j hj hlt => h2 (p :: j) ⟨hp, hj⟩ ?_⟩
            simp only [rowMajor]; omega

/-- **C41.** For arrays, subarrays and views of the same shape and any element comparison, `a < b` holds iff at the first position in row-major order whose elements are not equivalent
the element of `a` is the smaller one. -/
theorem C41_same_shape (s : St T) (n : Nat) (a b : Desc) (ha : Readable s n a) (hb : Readable s n b) (hext : a.extents = b.extents) (dbg : Bool)
    (lt : T → T → Bool) (f g : List Nat → T) (hf : Contents s a f) (hg : Contents s b g) :
    ∃ r, lessRef dbg lt s n a b = .ok r ∧ (r = true ↔ ∃ k, FirstLess lt a.extents f g k) := by
  obtain ⟨r, h1, h2⟩ := C41_less_is_lexicographic s n a b ha hb dbg lt f g hf hg
  refine ⟨r, h1, h2.trans ?_⟩
  rw [← hext]
  exact valLess_iff_firstLess lt n a.extents ha.len f g

/-- The position with a given row-major rank. -/
theorem rank_surj (es : List Nat) (i : Nat) (h : i < es.prod) : ∃ k, InShape es k ∧ rowMajor es k = i := by
  have hl : i < (allPos es).length := by rw [allPos_length]; exact h
  exact ⟨_, allPos_getElem? es i _ (List.getElem?_eq_getElem hl)⟩

/-- **C106.** Comparing memory images decides the comparison operators: two C-order arrays of the same extents satisfy `a < b` exactly when their memory images, as
flat sequences, compare lexicographically less; for any storage order common to both, `a == b` exactly when the images are equal entry by entry. -/
theorem C106_memory_images_decide_comparison [Nonempty T] {n : Nat} {a b : ARef} (ha : Reachable n a) (hb : Reachable n b) (hext : a.extents = b.extents)
    (s : St T) (hla : Live s a) (hlb : Live s b) (ia ib : List T) (hia : MemoryImage s a ia) (hib : MemoryImage s b ib) (dbg : Bool) (lt eq : T → T → Bool) :
    (a.storage = StorageOrder.cOrder n → b.storage = StorageOrder.cOrder n →
      ∃ r, lessRef dbg lt s n a.desc b.desc = .ok r ∧ (r = true ↔ LexLess (fun x y => lt x y = true) ia ib)) ∧
    (a.storage = b.storage → ∃ r, equalRef dbg eq s n a.desc b.desc = .ok r ∧
      (r = true ↔ ∀ (i : Nat) x y, ia[i]? = some x → ib[i]? = some y → eq x y = true)) := by
  have hra : Readable s n a.desc := ⟨n, a, ha, .array, hla, ha.wf.ext_len⟩
  have hrb : Readable s n b.desc := ⟨n, b, hb, .array, hlb, hb.wf.ext_len⟩
  have hna := (C09_array_queries ha).1
  have hnb := (C09_array_queries hb).1
  have hlen : ib.length = ia.length := by rw [hia.1, hib.1, hna, hnb, hext]
  obtain ⟨f, hf⟩ := hra.contents
  obtain ⟨g, hg⟩ := hrb.contents
  constructor
  · intro hao hbo
    obtain ⟨r, h1, h2⟩ := C41_same_shape s n a.desc b.desc hra hrb hext dbg lt f g hf hg
    refine ⟨r, h1, h2.trans ?_⟩
    have hfi : ∀ k, InShape a.extents k → ia[rowMajor a.extents k]? = some (f k) := by
      intro k hk
      rw [← hf k hk, elemAt_row ha hao s hk, hia.2 _ (by rw [hna]; exact rowMajor_lt _ _ hk)]
    have hgi : ∀ k, InShape a.extents k → ib[rowMajor a.extents k]? = some (g k) := by
      intro k hk
      have hk' : InShape b.extents k := by rw [← hext]; exact hk
      rw [← hg k hk', elemAt_row hb hbo s hk', ← hext, hib.2 _ (by rw [hnb, ← hext]; exact rowMajor_lt _ _ hk)]
    have hbd : ia.length = a.extents.prod := by rw [hia.1, hna]
    show (∃ k, FirstLess lt a.extents f g k) ↔ _
    constructor
    · rintro ⟨k, k1, k2, k3⟩
      have hlt := rowMajor_lt _ _ k1
      refine ⟨rowMajor a.extents k, fun i x y hi hx hy => ?_, by omega, by omega, .inr ⟨_, _, hfi k k1, hgi k k1, k2⟩⟩
      obtain ⟨j, hj, rfl⟩ := rank_surj a.extents i (by omega)
      rw [hfi j hj] at hx; rw [hgi j hj] at hy
      cases hx; cases hy
      have := k3 j hj hi
      simp [this]
    · rintro ⟨p, h1, h2, h3, h4⟩
      rcases h4 with ⟨h4, h5⟩ | ⟨x, y, hx, hy, hxy⟩
      · omega
      · have hp : p < a.extents.prod := by
          have := (List.getElem?_eq_some_iff.mp hx).1
          omega
        obtain ⟨k, hk, rfl⟩ := rank_surj _ p hp
        rw [hfi k hk] at hx; rw [hgi k hk] at hy
        cases hx; cases hy
        refine ⟨k, hk, hxy, fun j hj hlt => ?_⟩
        have := h1 _ _ _ hlt (hfi j hj) (hgi j hj)
        simpa using this
  · intro ho
    obtain ⟨r, h1, _, h2⟩ := C40_equality s n a.desc b.desc hra hrb dbg eq
    refine ⟨r, h1, h2.trans ?_⟩
    have hat : ∀ k, InShape a.extents k → elemAt s a.desc k = ia[storageRank a.storage a.extents k]? ∧
        elemAt s b.desc k = ib[storageRank a.storage a.extents k]? ∧ storageRank a.storage a.extents k < a.numElements := by
      intro k hk
      obtain ⟨e1, e2⟩ := elemAt_flat ha s hk
      obtain ⟨e3, e4⟩ := elemAt_flat hb s (k := k) (by rw [← hext]; exact hk)
      rw [← hext, ← ho] at e3 e4
      exact ⟨e1.trans (hia.2 _ e2), e3.trans (hib.2 _ e4), e2⟩
    constructor
    · rintro ⟨_, h⟩ i x y hx hy
      have hi : i < a.numElements := by rw [← hia.1]; exact (List.getElem?_eq_some_iff.mp hx).1
      obtain ⟨k, hk, hr⟩ : ∃ k, InShape a.extents k ∧ storageRank a.storage a.extents k = i := by
        obtain ⟨idx, ⟨hin, hval⟩, _⟩ := C03_every_element_addressable ha true i hi
        have hb' : a.bases.length = a.extents.length := by rw [ha.wf.bases_len, ha.wf.ext_len]
        obtain ⟨k, hk, rfl⟩ := (inBox_iff_atPos hb').mp hin
        refine ⟨k, hk, ?_⟩
        have h5 := (C05_layout_formula ha true k hk).1
        rw [hval] at h5
        have h6 := Res.ok.inj h5
        rw [Ptr.add_inj] at h6
        exact_mod_cast h6.symm
      obtain ⟨u, v, hu, hv, huv⟩ := h k hk
      obtain ⟨e1, e2, _⟩ := hat k hk
      rw [e1, hr, hx] at hu
      rw [e2, hr, hy] at hv
      cases hu; cases hv
      exact huv
    · intro h
      refine ⟨hext, fun k hk => ?_⟩
      obtain ⟨e1, e2, _⟩ := hat k hk
      have hk' : InShape b.desc.extents k := by show InShape b.extents k; rw [← hext]; exact hk
      exact ⟨f k, g k, hf k hk, hg k hk', h _ _ _ (e1.symm.trans (hf k hk)) (e2.symm.trans (hg k hk'))⟩

/-! ### Instances -/

example : ∃ f g, Contents exSt2 exArr.desc f ∧ Contents exSt2 exArr2.desc g ∧
    ∃ r, lessRef true (fun (x y : Nat) => decide (x < y)) exSt2 3 exArr.desc exArr2.desc = .ok r ∧
      (r = true ↔ ∃ k, FirstLess (fun (x y : Nat) => decide (x < y)) exArr.desc.extents f g k) := by
  obtain ⟨f, hf⟩ := exArr_readable.contents
  obtain ⟨g, hg⟩ := exArr2_readable.contents
  exact ⟨f, g, hf, hg, C41_same_shape exSt2 3 _ _ exArr_readable exArr2_readable rfl true _ f g hf hg⟩

/-- The C-order array in block 9. -/
def tpC9 : ARef := { tpC with base := ⟨9, 0⟩ }
theorem tpC9_reachable : Reachable 3 tpC9 :=
  .ofExtents (p := ⟨9, 0⟩) (exts := [2, 3, 4]) (so := StorageOrder.cOrder 3) (by decide) (by decide)

example := C106_memory_images_decide_comparison tpC_reachable tpC9_reachable rfl exSt2
  (fun k hk => by change k < 24 at hk; refine ⟨k, ?_⟩; interval_cases k <;> rfl)
  (fun k hk => by change k < 24 at hk; refine ⟨99, ?_⟩; interval_cases k <;> rfl)
  (List.range 24) (List.replicate 24 99)
  ⟨by decide, fun k hk => by change k < 24 at hk; interval_cases k <;> rfl⟩
  ⟨by decide, fun k hk => by change k < 24 at hk; interval_cases k <;> rfl⟩ true (fun x y => decide (x < y)) (fun x y => decide (x = y))

/-- A Fortran-order array of different contents: its memory image may compare the other way round. -/
theorem C106_images_do_not_order_fortran_arrays :
    ∃ (a b : ARef) (s : St Nat) (ia ib : List Nat), Reachable 2 a ∧ Reachable 2 b ∧ a.extents = b.extents ∧ a.storage = b.storage ∧
      MemoryImage s a ia ∧ MemoryImage s b ib ∧ LexLess (fun x y => decide (x < y) = true) ia ib ∧
      lessRef true (fun (x y : Nat) => decide (x < y)) s 2 a.desc b.desc = .ok false :=
  ⟨{ base := ⟨7, 0⟩, storage := StorageOrder.fortranOrder 2, extents := [2, 2], strides := [1, 2], bases := [0, 0],
     originOffset := 0, directionalOffset := 0, numElems := 4 },
   { base := ⟨9, 0⟩, storage := StorageOrder.fortranOrder 2, extents := [2, 2], strides := [1, 2], bases := [0, 0],
     originOffset := 0, directionalOffset := 0, numElems := 4 },
   { heap := fun b => if b = 7 then some ⟨0, [0, 0, 1, 0].map .obj⟩ else if b = 9 then some ⟨0, [0, 1, 0, 0].map .obj⟩ else none,
     next := 10, sched := [] },
   [0, 0, 1, 0], [0, 1, 0, 0],
   .ofExtents (p := ⟨7, 0⟩) (exts := [2, 2]) (fortranOrder_valid 2) (by decide),
   .ofExtents (p := ⟨9, 0⟩) (exts := [2, 2]) (fortranOrder_valid 2) (by decide), rfl, rfl,
   ⟨by decide, fun k hk => by change k < 4 at hk; interval_cases k <;> rfl⟩,
   ⟨by decide, fun k hk => by change k < 4 at hk; interval_cases k <;> rfl⟩,
   ⟨1, fun i x y hi hx hy => by
      have : i = 0 := by omega
      subst this; cases hx; cases hy; decide, by decide, by decide, .inr ⟨0, 1, rfl, rfl, by decide⟩⟩, by decide⟩

end MultiArray.Props
