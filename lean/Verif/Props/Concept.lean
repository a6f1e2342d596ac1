import Verif.SpecConcept
import Verif.Lemmas.Prog
import Verif.Props.Iter
import Verif.Props.Layout
import Verif.Props.Members
import Verif.Props.Views2

/- Property theorems C101: everything derived from an array models the documented MultiArray concept. -/
set_option autoImplicit false

namespace MultiArray.Props
open MultiArray MultiArray.Spec

theorem documentedOffset_eq (idx ss : List Int) : documentedOffset idx ss = dot idx ss := by
  have aux : ∀ (idx ss : List Int) (z : Int), (List.zipWith (· * ·) idx ss).foldl (· + ·) z = z + dot idx ss := by
    intro idx
    induction idx with
    | nil => intro ss z; simp [dot]
    | cons i idx ih =>
      intro ss z
      cases ss with
      | nil => simp [dot]
      | cons s ss => simp only [List.zipWith_cons_cons, List.foldl_cons, ih, dot]; ring
  rw [documentedOffset, aux, zero_add]

theorem bracketAll_eq (dbg : Bool) (is : List Int) (d : Desc) : bracketAll dbg is d = accessChain dbg is d := by
  rw [← brackets_eq]
  induction is generalizing d with
  | nil => rfl
  | cons i is ih =>
    simp only [bracketAll, brackets]
    cases d.bracket dbg i with
    | ok x => simp only [Res.bind_ok]; exact ih x
    | assertFail => rfl
    | ub => rfl

/-- Everything derived from an array satisfies the documented table. -/
theorem handle_table {n : Nat} {root : ARef} (hr : Reachable n root) (dbg : Bool) {d : Desc} (h : Handle root d) : ConceptTable dbg (Handle root) d := by
  have hw := handle_wellShaped hr h
  have hcons : ∀ {e : Nat}, d.extents.head? = some e → ∃ es, d.extents = e :: es := by
    intro e he
    cases hx : d.extents with
    | nil => rw [hx] at he; simp at he
    | cons e' es => rw [hx] at he; simp at he; exact ⟨es, by rw [he]⟩
  have hconsb : ∀ {b : Int}, d.bases.head? = some b → ∃ bs, d.bases = b :: bs := by
    intro b hb
    cases hx : d.bases with
    | nil => rw [hx] at hb; simp at hb
    | cons b' bs => rw [hx] at hb; simp at hb; exact ⟨bs, by rw [hb]⟩
  constructor
  · exact ⟨rfl, hw.1, hw.2⟩
  · have : ∀ (l : List Nat) (z : Nat), l.foldl (· * ·) z = z * l.prod := by
      intro l
      induction l with
      | nil => intro z; simp
      | cons x l ih => intro z; simp only [List.foldl_cons, ih, List.prod_cons]; ring
    rw [this, one_mul]
    exact (C09_subarray_queries hw.2).1
  · intro e he
    obtain ⟨es, he⟩ := hcons he
    exact ((C09_subarray_queries hw.2).2.2.1 e es he).1
  · intro e he
    obtain ⟨es, he⟩ := hcons he
    obtain ⟨b, first, last, _, h1, h2, _, h3, _, h4⟩ := C26_iterator_range hr h e es he
    exact ⟨first, last, h1, h2, h3, h4⟩
  · intro e b i he hb h1 h2
    obtain ⟨es, he⟩ := hcons he
    obtain ⟨bs, hb⟩ := hconsb hb
    obtain ⟨d', e1, e2, e3, e4, e5, _⟩ := C25_subarray hr h dbg i e es b bs he hb ⟨h1, h2⟩
    obtain ⟨b', first, last, f1, f2, _, _, _, f3, _⟩ := C26_iterator_range hr h e es he
    have hbb : b' = b := by rw [hb] at f1; simpa using f1.symm
    subst hbb
    obtain ⟨k, hk⟩ : ∃ k : Nat, i - b' = (k : Int) := ⟨(i - b').toNat, by omega⟩
    have hi : b' + (k : Int) = i := by omega
    refine ⟨d', first, e1, f2, ?_, e5, e2, e3, e4⟩
    rw [hk, (f3 dbg k (by omega)).1, hi]
    exact e1
  · intro e b fuel he hb hf
    obtain ⟨es, he⟩ := hcons he
    obtain ⟨bs, hb⟩ := hconsb hb
    obtain ⟨first, last, rfirst, rlast, vs, h1, h2, h3, h4, h5, h6, _⟩ := C29_reverse_iteration hr h dbg e es he fuel hf
    obtain ⟨first', last', vs', g1, g2, g3, g4⟩ := C26_loop_produces_values hr h dbg e es he fuel hf
    rw [h1] at g1
    rw [h2] at g2
    cases g1
    cases g2
    rw [h5] at g3
    cases g3
    refine ⟨first, last, rfirst, rlast, vs, h1, h2, h3, h4, h5, h6, ?_⟩
    rw [g4]
    simp only [values, he, hb]
    rfl
  · intro idx hin
    rw [bracketAll_eq, documentedOffset_eq]
    exact ⟨accessElement_inBox dbg d idx hw.1 hin, accessChain_full dbg d idx hw.1 hin⟩
  · intro idx idx' p h1 h2 h3 h4
    obtain ⟨_, f, hf, hinj⟩ := h.embedding hr.wf
    rw [Desc.paren, accessElement_inBox dbg d idx hw.1 h1] at h3
    rw [Desc.paren, accessElement_inBox dbg d idx' hw.1 h2] at h4
    cases h3
    have ha : address d idx' = address d idx := by simpa using h4
    obtain ⟨a1, a2⟩ := hf idx h1
    obtain ⟨b1, b2⟩ := hf idx' h2
    apply hinj idx idx' h1 h2
    by_contra hne
    obtain ⟨p, q, hp, hq, hpq⟩ := C02_distinct_elements hr true _ _ a1 b1 hne
    rw [hr.wf.paren_ok true a1] at hp
    rw [hr.wf.paren_ok true b1] at hq
    cases hp
    cases hq
    exact hpq (show address root.desc (f idx) = address root.desc (f idx') by rw [← a2, ← b2, ha])
  · intro hd idx hl hin
    subst hd
    exact ((C07_range_check_exact hr h idx hl).2.1).mpr hin
  · intro xs hleg
    obtain ⟨_, f, hf, _⟩ := h.embedding hr.wf
    have hp : PartOf root d ⟨d.bases, d.extents, f⟩ := ⟨h, rfl, rfl, hf⟩
    obtain ⟨e1, e2, e3, e4⟩ := partOf_view hr.wf dbg hp (xs := xs) hleg
    obtain ⟨hne, hl, hno, hrng, hidx⟩ := hleg
    have hrs : (idxGen xs).ranges = xs.map IndexArg.toRange := by simp [idxGen, genList, hne]
    have hl' : LegalRanges d.bases d.extents (idxGen xs).ranges := by rw [hrs]; exact hl
    have hno' : NoOverrun d.bases d.extents (idxGen xs).ranges := by rw [hrs]; exact hno
    have hnum : numRanged (idxGen xs).ranges = (idxGen xs).numDims := by rw [hrs]; exact numRanged_ranges xs hrng
    have hbuilt := built_idxGen xs hidx
    have hgen := genView_legal true (idxGen xs) d hw hl' hnum
    have hin := staysInside_of_noOverrun hw hno' hbuilt hl'.length.1 hgen
    refine ⟨_, _, e1, e2, ?_, ?_, e3, ?_⟩
    · show (theView (idxGen xs) d).extents.length = _
      rw [theView_extents, List.length_map, selExtents_length _ _ _ hl'.length.1 hl'.length.2, hrs, numRanged_ranges xs hrng]
    · simp [theView, View.mkView, View.numDims]
    · intro v' hh
      have h4 := e4 v' hh
      refine ⟨h4.handle, by rw [e3]; exact h4.extents, ?_⟩
      intro j hj
      obtain ⟨p, p1, p2⟩ := C16_view_elements hr h hin hbuilt hl'.length.1 hgen hh dbg j hj
      rw [hrs] at p2
      exact ⟨p, p1, p2⟩

/-- **C101.** Every array, every array reference, and every subarray and every view derived from one, to any depth and with any reindexing and
reshaping on the way, models the documented MultiArray concept, in both build modes. -/
theorem C101_models_multi_array {n : Nat} {root : ARef} (hr : Reachable n root) {d : Desc} (h : Handle root d) (dbg : Bool) : ModelsMultiArray dbg d :=
  ⟨Handle root, h, fun _ h' => handle_table hr dbg h'⟩

/-- The strided view of the example array, its reindexed copy and their rows. -/
example : ∃ v v' r, generateArrayView true exView exArr.desc = .ok v ∧ v.reindexList [5, -1] = .ok v' ∧ v'.bracket true 6 = .ok r ∧ v'.extents = [3, 2] ∧
    r.extents = [2] ∧ (∀ dbg, ModelsMultiArray dbg v.desc ∧ ModelsMultiArray dbg v'.desc ∧ ModelsMultiArray dbg r) := by
  have hno : NoOverrun exArr.desc.bases exArr.desc.extents exView.ranges := by decide
  have hh : ∀ v v', generateArrayView true exView exArr.desc = .ok v → ViewHistory v v' → Handle exArr v'.desc :=
    fun v v' h1 h2 => handle_view exArr_reachable.wf .array hno exView_built rfl h1 h2
  have key : ∀ v v' r, generateArrayView true exView exArr.desc = .ok v → v.reindexList [5, -1] = .ok v' → v'.bracket true 6 = .ok r →
      ∀ dbg, ModelsMultiArray dbg v.desc ∧ ModelsMultiArray dbg v'.desc ∧ ModelsMultiArray dbg r := by
    intro v v' r h1 h2 h3 dbg
    have g := hh v v' h1 (.reindexList .refl h2)
    exact ⟨C101_models_multi_array exArr_reachable (hh v v h1 .refl) dbg, C101_models_multi_array exArr_reachable g dbg,
      C101_models_multi_array exArr_reachable (.sub g h3) dbg⟩
  exact ⟨_, _, _, rfl, rfl, rfl, by decide, by decide, key _ _ _ rfl rfl rfl⟩

/-- The concept excludes something: a descriptor all of whose indices name the same element, and one whose lists have different lengths. -/
example (dbg : Bool) : ¬ ModelsMultiArray dbg ⟨⟨7, 0⟩, [2], [0], [0]⟩ ∧ ¬ ModelsMultiArray dbg ⟨⟨7, 0⟩, [2, 2], [2], [0, 0]⟩ := by
  refine ⟨?_, ?_⟩
  · rintro ⟨M, hm, h⟩
    have := (h _ hm).unique [0] [1] ⟨7, 0⟩ (by decide) (by decide) (by cases dbg <;> rfl) (by cases dbg <;> rfl)
    simp at this
  · rintro ⟨M, hm, h⟩
    have := (h _ hm).lists.2.1
    simp [Desc.numDims] at this

/-- **C101.** The member functions of the array classes themselves (which keep `num_elements()` in a member and compute `origin()`) are those of the concept. -/
theorem C101_array_members {n : Nat} {root : ARef} (hr : Reachable n root) (dbg : Bool) :
    ModelsMultiArray dbg root.desc ∧ root.numDims = n ∧ root.desc.numDims = n ∧ root.numElements = root.desc.numElements ∧ root.size = root.desc.size ∧
    root.origin = root.desc.base ∧ (∀ idx, root.paren dbg idx = root.desc.paren dbg idx) ∧ (∀ i, root.bracket dbg i = root.desc.bracket dbg i) ∧
    (∀ g, root.slice dbg g = root.desc.slice dbg g) ∧ root.desc.base.add (-root.originOffset) = root.data := by
  have h := C09_array_queries hr
  have hb : root.desc.bases.length = root.desc.extents.length := (handle_wellShaped hr .array).2
  refine ⟨C101_models_multi_array hr .array dbg, h.2.2.2.1, h.2.2.2.2.1, ?_, rfl, rfl, fun _ => rfl, fun _ => rfl, fun _ => rfl, ?_⟩
  · rw [h.1, (C09_subarray_queries hb).1]; rfl
  · simp [ARef.desc, ARef.origin, ARef.data, Ptr.add]

theorem res_bind_ok {α β : Type} {x : Res α} {f : α → Res β} {b : β} (h : (x >>= f) = .ok b) : ∃ a, x = .ok a ∧ f a = .ok b := by
  cases x with
  | ok a => exact ⟨a, rfl, h⟩
  | assertFail => cases h
  | ub => cases h

/-- **C101.** The same for the member functions of view objects, which also keep `num_elements()` in a member. -/
theorem C101_view_members {n : Nat} {root : ARef} (hr : Reachable n root) {d : Desc} (h : Handle root d) (dbg : Bool) {xs : List IndexArg}
    (hleg : LegalArgs ⟨d.bases, d.extents, id⟩ xs) : ∃ g v, chainIndices IndexGen.empty xs = .ok g ∧ d.slice dbg g = .ok v ∧ ∀ v', ViewHistory v v' →
      ModelsMultiArray dbg v'.desc ∧ v'.numDims = (xs.filter IndexArg.isRange).length ∧ v'.desc.numDims = v'.numDims ∧ v'.numElements = v'.desc.numElements ∧
      v'.size = v'.desc.size ∧ v'.origin = v'.desc.base ∧ (∀ idx, v'.paren dbg idx = v'.desc.paren dbg idx) ∧
      (∀ i, v'.bracket dbg i = v'.desc.bracket dbg i) ∧ (∀ g', v'.slice dbg g' = v'.desc.slice dbg g') := by
  obtain ⟨g, v, h1, h2, h3, _, _, h6⟩ := (handle_table hr dbg h).view xs hleg
  refine ⟨g, v, h1, h2, fun v' hh => ?_⟩
  obtain ⟨m, he, _⟩ := h6 v' hh
  refine ⟨⟨Handle root, m, fun _ h' => handle_table hr dbg h'⟩, ?_, rfl, ?_, rfl, rfl, fun _ => rfl, fun _ => rfl, fun _ => rfl⟩
  · rw [← h3, View.numDims, he, View.numDims]
  · have hv : ∀ {u w : View}, ViewHistory u w → u.numElems = product u.extents → w.numElems = product w.extents ∧ w.extents = u.extents := by
      intro u w hw
      induction hw with
      | refl => exact fun hu => ⟨hu, rfl⟩
      | reindexList _ hr' ih =>
        intro hu
        obtain ⟨e1, e2⟩ := ih hu
        unfold View.reindexList at hr'
        obtain ⟨bs, _, hr'⟩ := res_bind_ok hr'
        cases hr'
        exact ⟨e1, e2⟩
      | reindexAll _ ih => exact fun hu => ih hu
    have h0 : v.numElems = product v.extents := by
      simp only [Desc.slice, generateArrayView] at h2
      obtain ⟨acc, _, h2⟩ := res_bind_ok h2
      obtain ⟨_, _, h2⟩ := res_bind_ok h2
      split at h2
      · cases h2; rfl
      · cases h2
    exact (hv hh h0).1

/-- A view with one index and two ranges. -/
example : LegalArgs ⟨exArr.desc.bases, exArr.desc.extents, id⟩ [.index 0, .range (IndexRange.mk3 7 4 (-1)), .range (IndexRange.default.setStride 2)] := by
  refine ⟨by decide, by decide, by decide, ?_, ?_⟩
  · intro r hr
    simp at hr
    rcases hr with rfl | rfl <;> rfl
  · intro i hi
    simp at hi
    subst hi
    decide

example : Reachable 3 exArr ∧ exArr.desc.numElements = 24 ∧ exArr.numElements = 24 := ⟨exArr_reachable, by decide, by decide⟩

/-! ### Instances: the theorems applied to concrete cases, whose hypotheses are thereby met -/

example := C101_array_members exArr_reachable true

/- end of instances -/

end MultiArray.Props
