import Verif.Lemmas.ProgStep
import Verif.SpecExchange

/- The element-by-element law of copying on abstract states. -/
set_option autoImplicit false

namespace MultiArray
open Spec
variable {T : Type}

/-- In-range indices have distinct places in the value sequence. -/
structure GoodArr (a : AbsArr T) : Prop where
  lt : ∀ idx, InBox a.bases a.extents idx → a.at_ idx < a.vals.length
  inj : ∀ idx idx', InBox a.bases a.extents idx → InBox a.bases a.extents idx' → a.at_ idx = a.at_ idx' → idx = idx'

theorem Spec.Represents.good {s : St T} {a : MArr} {abs : AbsArr T} (h : Represents s a abs) : GoodArr abs := by
  have hw := h.owns.reach.wf
  have key : ∀ idx, abs.at_ idx = place a.ref.storage a.ref.extents (posList a.ref.bases idx) := by
    intro idx; unfold AbsArr.at_; rw [h.order, h.extents, h.bases]
  constructor
  · intro idx hin
    have hin' := (h.inBox idx).mpr hin
    rw [key, h.owns.len]
    exact place_lt hw (posList_inShape hin')
  · intro idx idx' hin hin' he
    have h1 := (h.inBox idx).mpr hin
    have h2 := (h.inBox idx').mpr hin'
    rw [key, key] at he
    have := place_inj hw (posList_inShape h1) (posList_inShape h2) he
    rw [← atPos_posList h1, ← atPos_posList h2, this]

theorem Spec.World.Rep.good {w : World T} {A : AState T} (h : w.Rep A) {x : Nat} {abs : AbsArr T} (hA : A x = some abs) : GoodArr abs := by
  obtain ⟨a, _, hr⟩ := h.abs hA
  exact hr.good

theorem GoodArr.vals {a : AbsArr T} (h : GoodArr a) {vs : List T} (hl : vs.length = a.vals.length) : GoodArr { a with vals := vs } :=
  ⟨fun idx hin => by show a.at_ idx < vs.length; rw [hl]; exact h.lt idx hin, h.inj⟩

theorem Spec.AState.get_set_same (A : AState T) (x : Nat) (a : AbsArr T) (idx : List Int) : (A.set x (some a)).get x idx = a.vals[a.at_ idx]? := by
  simp [AState.get, AState.set]

theorem Spec.AState.get_set_other (A : AState T) {x z : Nat} (h : z ≠ x) (a : Option (AbsArr T)) (idx : List Int) :
    (A.set x a).get z idx = A.get z idx := by
  simp [AState.get, AState.set, h]

/-- What copying does to every element, if no destination is a later source or a later destination. -/
theorem copy_law {x y : Nat} {p q : APart} (ks : List (List Nat)) {A A' : AState T} {a : AbsArr T} (hA : A x = some a) (hg : GoodArr a)
    (hp : ∀ k ∈ ks, InBox a.bases a.extents (p.root (atPos p.bases k)))
    (hq : x = y → ∀ k ∈ ks, InBox a.bases a.extents (q.root (atPos q.bases k)))
    (hpw : ks.Pairwise (fun k k' => p.root (atPos p.bases k) ≠ p.root (atPos p.bases k') ∧
      (x = y → p.root (atPos p.bases k) ≠ q.root (atPos q.bases k'))))
    (hc : AState.copy x p y q ks A = some A') :
    ∃ vs, A' = A.set x (some { a with vals := vs }) ∧ vs.length = a.vals.length ∧
      (∀ k ∈ ks, A'.get x (p.root (atPos p.bases k)) = A.get y (q.root (atPos q.bases k))) ∧
      (∀ idx, InBox a.bases a.extents idx → (∀ k ∈ ks, p.root (atPos p.bases k) ≠ idx) → A'.get x idx = A.get x idx) := by
  induction ks generalizing A a with
  | nil =>
    cases hc
    exact ⟨a.vals, (AState.set_self hA).symm, rfl, by simp, fun _ _ _ => rfl⟩
  | cons k ks ih =>
    rw [List.pairwise_cons] at hpw
    obtain ⟨hpw1, hpw2⟩ := hpw
    simp only [AState.copy, AState.move] at hc
    cases hv : A.get y (q.root (atPos q.bases k)) with
    | none => rw [hv] at hc; cases hc
    | some v =>
      rw [hv, Option.bind_some] at hc
      have hput : A.put x (p.root (atPos p.bases k)) v =
          some (A.set x (some { a with vals := a.vals.set (a.at_ (p.root (atPos p.bases k))) v })) := by
        simp [AState.put, hA]
      rw [hput, Option.bind_some] at hc
      obtain ⟨vs, e1, e2, e3, e4⟩ := ih (A := A.set x (some { a with vals := a.vals.set (a.at_ (p.root (atPos p.bases k))) v }))
        (a := { a with vals := a.vals.set (a.at_ (p.root (atPos p.bases k))) v })
        (AState.set_same _ _ _) (hg.vals (by simp)) (fun k hk => hp k (by simp [hk])) (fun hxy k hk => hq hxy k (by simp [hk])) hpw2 hc
      have hpk := hp k (by simp)
      have hother : ∀ idx, InBox a.bases a.extents idx → p.root (atPos p.bases k) ≠ idx →
          (A.set x (some { a with vals := a.vals.set (a.at_ (p.root (atPos p.bases k))) v })).get x idx = A.get x idx := by
        intro idx hin hne
        rw [AState.get_set_same]
        show (a.vals.set _ v)[a.at_ idx]? = _
        rw [List.getElem?_set_ne (fun h => hne (hg.inj _ _ hpk hin h))]
        simp [AState.get, hA]
      refine ⟨vs, ?_, by rw [e2]; simp, ?_, ?_⟩
      · rw [e1]
        funext z
        by_cases hz : z = x <;> simp [AState.set, hz]
      · intro k' hk'
        rw [List.mem_cons] at hk'
        rcases hk' with rfl | hk'
        · rw [e4 _ hpk (fun k2 hk2 => (hpw1 k2 hk2).1.symm), AState.get_set_same, hv]
          show (a.vals.set _ v)[a.at_ _]? = _
          rw [List.getElem?_set_self (hg.lt _ hpk)]
        · rw [e3 k' hk']
          by_cases hxy : x = y
          · subst hxy
            exact hother _ (hq rfl k' (by simp [hk'])) ((hpw1 k' hk').2 rfl)
          · exact AState.get_set_other _ (fun h => hxy h.symm) _ _
      · intro idx hin hne
        rw [e4 idx hin (fun k2 hk2 => hne k2 (by simp [hk2])), hother idx hin (hne k (by simp))]

theorem positions_nodup (es : List Nat) : (positions es).Nodup := by
  induction es with
  | nil => simp [positions]
  | cons e es ih =>
    simp only [positions]
    rw [List.nodup_flatMap]
    refine ⟨fun k _ => ih.map (fun _ _ h => by simpa using h), ?_⟩
    refine List.Pairwise.imp ?_ (List.nodup_range (n := e))
    intro k k' hne l hl hl'
    simp only [List.mem_map] at hl hl'
    obtain ⟨u, _, rfl⟩ := hl
    obtain ⟨u', _, h⟩ := hl'
    simp only [List.cons.injEq] at h
    exact hne h.1.symm

theorem mem_positions {es k : List Nat} : k ∈ positions es ↔ InShape es k := by rw [positions_eq, mem_allPos]

theorem posList_atPos {bs : List Int} {k : List Nat} (h : bs.length = k.length) : posList bs (atPos bs k) = k := by
  induction bs generalizing k with
  | nil => cases k <;> simp_all [posList, atPos]
  | cons b bs ih =>
    cases k with
    | nil => simp at h
    | cons j k =>
      have := ih (k := k) (by simpa using h)
      simp only [posList, atPos] at this ⊢
      simp only [List.zipWith_cons_cons, this, List.cons.injEq, and_true]
      omega

theorem atPos_inj {bs : List Int} {k k' : List Nat} (h : bs.length = k.length) (h' : bs.length = k'.length) (he : atPos bs k = atPos bs k') :
    k = k' := by rw [← posList_atPos h, ← posList_atPos h', he]

/-- What a legal part expression gives. -/
structure GoodPart (a : AbsArr T) (p : APart) : Prop where
  len : p.bases.length = p.extents.length
  inBox : ∀ idx, InBox p.bases p.extents idx → InBox a.bases a.extents (p.root idx)
  inj : ∀ i j, InBox p.bases p.extents i → InBox p.bases p.extents j → p.root i = p.root j → i = j

theorem Spec.World.Rep.goodPart {w : World T} {A : AState T} (h : w.Rep A) {x : Nat} {ss : List Sel} {p : APart} {a : AbsArr T}
    (hA : A x = some a) (hp : A.Part x ss p) : GoodPart a p := by
  obtain ⟨m, d, hx, _, hpo, _⟩ := h.partOf false hp
  obtain ⟨m', hx', hr⟩ := h.abs hA
  rw [hx] at hx'; cases hx'
  have hw := partOf_wellShaped hr.owns.reach hpo
  refine ⟨by rw [← hpo.bases, ← hpo.extents]; exact hw.2, fun idx hin => (hr.inBox _).mp (hpo.root idx hin).1, ?_⟩
  intro i j hi hj he
  refine hpo.handle.address_inj hr.owns.reach.wf (by rw [hpo.bases, hpo.extents]; exact hi) (by rw [hpo.bases, hpo.extents]; exact hj) ?_
  rw [(hpo.root i hi).2, (hpo.root j hj).2, he]

theorem GoodPart.pos {a : AbsArr T} {p : APart} (h : GoodPart a p) {k : List Nat} (hk : InShape p.extents k) :
    InBox p.bases p.extents (atPos p.bases k) := inBox_atPos h.len hk

theorem GoodPart.pos_inj {a : AbsArr T} {p : APart} (h : GoodPart a p) {k k' : List Nat} (hk : InShape p.extents k) (hk' : InShape p.extents k')
    (he : p.root (atPos p.bases k) = p.root (atPos p.bases k')) : k = k' := by
  have := h.inj _ _ (h.pos hk) (h.pos hk') he
  exact atPos_inj (by rw [h.len, hk.length]) (by rw [h.len, hk'.length]) this

/-- Expressions mean the same in states with the same headers. -/
theorem part_header {A A' : AState T} {x : Nat} (h : A'.header x = A.header x) {ss : List Sel} {p : APart} (hp : A.Part x ss p) :
    A'.Part x ss p := by
  obtain ⟨a, hA, h1, h2⟩ := hp
  simp only [AState.header, hA, Option.map_some] at h
  cases hA' : A' x with
  | none => rw [hA'] at h; cases h
  | some a' =>
    rw [hA'] at h
    simp only [Option.map_some, Option.some.injEq, Prod.mk.injEq] at h
    have : a'.whole = a.whole := by simp [AbsArr.whole, h.1, h.2.1]
    exact ⟨a', hA', by rw [this]; exact h1, by rw [this]; exact h2⟩

/-- A copy between parts, all at once. -/
theorem copy_parts {w : World T} {A A' : AState T} (h : w.Rep A) {x y : Nat} {p q : APart} {ss ss' : List Sel} (hp : A.Part x ss p)
    (hq : A.Part y ss' q) (he : p.extents = q.extents) (hdis : x = y → p = q ∨ p.Disjoint q)
    (hc : AState.copy x p y q (positions p.extents) A = some A') :
    (∀ z, A'.header z = A.header z) ∧ (∀ z, z ≠ x → A' z = A z) ∧
      (∀ k, InShape p.extents k → A'.get x (p.root (atPos p.bases k)) = A.get y (q.root (atPos q.bases k))) ∧
      (∀ idx, A.InRange x idx → (∀ i, InBox p.bases p.extents i → p.root i ≠ idx) → A'.get x idx = A.get x idx) := by
  obtain ⟨a, hA, _⟩ := id hp
  obtain ⟨b, hB, _⟩ := id hq
  have gp := h.goodPart hA hp
  have gq := h.goodPart hB hq
  have inq : ∀ k, InShape p.extents k → InShape q.extents k := fun k hk => by rw [← he]; exact hk
  obtain ⟨vs, e1, e2, e3, e4⟩ := copy_law (positions p.extents) hA (h.good hA)
    (fun k hk => gp.inBox _ (gp.pos (mem_positions.mp hk)))
    (fun hxy k hk => by
      subst hxy; rw [hA] at hB; cases hB
      exact gq.inBox _ (gq.pos (inq k (mem_positions.mp hk))))
    (by
      refine List.Pairwise.imp_of_mem ?_ (positions_nodup p.extents)
      intro k k' hk hk' hne
      have hk := mem_positions.mp hk
      have hk' := mem_positions.mp hk'
      refine ⟨fun e => hne (gp.pos_inj hk hk' e), fun hxy => ?_⟩
      rcases hdis hxy with rfl | hd
      · exact fun e => hne (gp.pos_inj hk hk' e)
      · exact hd _ _ (gp.pos hk) (gq.pos (inq k' hk')))
    hc
  refine ⟨?_, ?_, fun k hk => e3 k (mem_positions.mpr hk), ?_⟩
  · intro z
    rw [e1]
    by_cases hz : z = x
    · subst hz; simp [AState.header, AState.set, hA]
    · simp [AState.header, AState.set, hz]
  · intro z hz; rw [e1]; exact AState.set_other _ hz _
  · rintro idx ⟨a', hA', hin⟩ hne
    rw [hA] at hA'; cases hA'
    exact e4 idx hin (fun k hk => hne _ (gp.pos (mem_positions.mp hk)))

/-- The elements of a converted copy. -/
theorem layout_get {a : AbsArr T} (hg : GoodArr a) {dflt : T} {f : List Nat → Option T} (hl : a.bases.length = a.extents.length)
    (hv : a.vals = layout dflt a.order a.extents f) {k : List Nat} (hk : InShape a.extents k) {v : T} (hf : f k = some v) :
    a.vals[a.at_ (atPos a.bases k)]? = some v := by
  have key : ∀ j, InShape a.extents j → a.at_ (atPos a.bases j) = place a.order a.extents j := by
    intro j hj
    unfold AbsArr.at_
    rw [posList_atPos (by rw [hl, hj.length])]
  have hlt := hg.lt _ (inBox_atPos hl hk)
  rw [key k hk, hv] at hlt ⊢
  unfold layout at hlt ⊢
  rw [List.length_map, List.length_range] at hlt
  rw [List.getElem?_map, List.getElem?_range hlt, Option.map_some]
  cases hf' : (positions a.extents).find? (fun j => decide (place a.order a.extents j = place a.order a.extents k)) with
  | none =>
    rw [List.find?_eq_none] at hf'
    exact absurd (hf' k (mem_positions.mpr hk)) (by simp)
  | some j =>
    have h1 : place a.order a.extents j = place a.order a.extents k := by simpa using List.find?_some hf'
    have hj := mem_positions.mp (List.mem_of_find?_eq_some hf')
    rw [← key j hj, ← key k hk] at h1
    have := hg.inj _ _ (inBox_atPos hl hj) (inBox_atPos hl hk) h1
    have hjk := atPos_inj (by rw [hl, hj.length]) (by rw [hl, hk.length]) this
    subst hjk
    simp [hf]

end MultiArray
