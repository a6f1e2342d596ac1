import Mathlib.Tactic.Linarith
import Verif.SpecFlat
import Verif.Lemmas.HandleMem
import Verif.Lemmas.Gens
import Verif.Lemmas.Special

/- Proofs about flat loops. -/
set_option autoImplicit false

namespace MultiArray
open Spec
variable {T : Type}

theorem flatCopy_eq (dst src : Desc) (ks : List (List Nat)) :
    (flatCopy dst src ks : Exec T Unit) = copySeq (ks.map (fun k => (posAddr src k, posAddr dst k))) := by
  induction ks with
  | nil => rfl
  | cons k ks ih => simp only [flatCopy, List.map_cons, copySeq, ih]

theorem copyPairs_positions (src dst : Desc) (hs : WellShaped src) (hd : WellShaped dst) (he : src.extents = dst.extents) :
    (copySeq (copyPairs src dst) : Exec T Unit) = flatCopy dst src (positions dst.extents) := by
  rw [flatCopy_eq, positions_eq, copyPairs_eq_map _ _ hs hd he]
  rfl

/-- Transform elements one at a time with an arbitrary functor. -/
def mapXSeq {σ : Type} (f : σ → T → Exec T (T × σ)) : List Ptr → σ → Exec T σ
  | [], q => pure q
  | p :: ps, q => do
    let v ← load p
    let r ← f q v
    assignCell p r.1
    mapXSeq f ps r.2

theorem mapXSeq_append {σ : Type} (f : σ → T → Exec T (T × σ)) (l1 l2 : List Ptr) (q : σ) :
    mapXSeq f (l1 ++ l2) q = (do let q' ← mapXSeq f l1 q; mapXSeq f l2 q') := by
  induction l1 generalizing q with
  | nil => simp [mapXSeq]
  | cons p l1 ih => simp only [List.cons_append, mapXSeq, ih, bind_assoc]

theorem stdForEachX_spec {σ : Type} (f : σ → T → Exec T (T × σ)) (body : It → σ → Exec T σ) (D : Desc) (b : Int) (F : Nat → List Ptr) (m j : Nat)
    (h : ∀ k q, j ≤ k → k < j + m → body ⟨b + (k : Int), D⟩ q = mapXSeq f (F k) q) (q : σ) :
    stdForEach body m ⟨b + (j : Int), D⟩ q = mapXSeq f ((List.range' j m).flatMap F) q := by
  induction m generalizing j q with
  | zero => simp [stdForEach, mapXSeq]
  | succ m ih =>
    simp only [stdForEach, It.increment]
    rw [h j q (by omega) (by omega), List.range'_succ, List.flatMap_cons, mapXSeq_append,
      show b + (j : Int) + 1 = b + ((j + 1 : Nat) : Int) by push_cast; ring]
    congr 1
    funext q'
    exact ih (j + 1) (fun k q h1 h2 => h k q (by omega) (by omega)) q'

theorem forEachX_eq {σ : Type} (dbg : Bool) (f : σ → T → Exec T (T × σ)) (d : Desc) (hw : WellShaped d) (q : σ) :
    forEachX dbg f d.extents.length d q = mapXSeq f (addrs d) q := by
  obtain ⟨p, es, ss, bs⟩ := d
  induction es generalizing p ss bs q with
  | nil =>
    match ss, bs, hw with
    | [], [], _ => simp [forEachX, addrs_nil, mapXSeq]
  | cons e es ih =>
    match ss, bs, hw with
    | s :: ss, b :: bs, hw =>
      simp only [List.length_cons, forEachX, begin_cons, end_cons, Exec.lift_ok, pure_bind]
      rw [addrs_cons,
        show (It.sub ⟨b + (e : Int), (⟨p, e :: es, s :: ss, b :: bs⟩ : Desc)⟩ ⟨b, ⟨p, e :: es, s :: ss, b :: bs⟩⟩).toNat = e
        by simp [It.sub, It.distanceTo]]
      have := stdForEachX_spec f (fun i q => do
        let s ← Exec.lift (i.deref dbg)
        forEachX dbg f es.length s q) ⟨p, e :: es, s :: ss, b :: bs⟩ b (fun k => addrs (subAt p es s ss b bs k)) e 0
        (by
          intro k q _ hk
          rw [It.deref_in dbg p e es s ss b bs k (by omega)]
          simp only [Exec.lift_ok, pure_bind]
          exact ih q _ _ _ (wellShaped_subAt hw k)) q
      simpa [List.range_eq_range'] using this

theorem flatForEach_eq {σ : Type} (f : σ → T → Exec T (T × σ)) (a : Desc) (ks : List (List Nat)) (q : σ) :
    flatForEach f a ks q = mapXSeq f (ks.map (posAddr a)) q := by
  induction ks generalizing q with
  | nil => rfl
  | cons k ks ih => simp only [flatForEach, List.map_cons, mapXSeq, ih]

theorem applyUntil_length {σ : Type} (f : σ → T → Option (T × σ)) (q : σ) (vs : List T) : (applyUntil f q vs).1.length ≤ vs.length := by
  induction vs generalizing q with
  | nil => simp [applyUntil]
  | cons v vs ih =>
    simp only [applyUntil]
    cases h : f q v with
    | none => simp
    | some r => obtain ⟨w, q'⟩ := r; simpa using ih q'

theorem mapXSeq_throwing {σ : Type} (f : σ → T → Option (T × σ)) (ps : List Ptr) (vs : List T) (q : σ) (s : St T) (hlen : vs.length = ps.length)
    (hl : ∀ (i : Nat) p v, ps[i]? = some p → vs[i]? = some v → s.get? p = some v) (hnd : ps.Nodup) (hsched : s.sched = []) :
    ∃ s', mapXSeq (throwing f) ps q s =
        (match (applyUntil f q vs).2 with
          | some q' => Out.ok q' s'
          | none => Out.throw s') ∧
      (∀ (i : Nat) p, ps[i]? = some p → i < (applyUntil f q vs).1.length → s'.get? p = (applyUntil f q vs).1[i]?) ∧
      (∀ (i : Nat) p, ps[i]? = some p → (applyUntil f q vs).1.length ≤ i → s'.get? p = s.get? p) ∧
      (∀ p, p ∉ ps → s'.cell? p = s.cell? p) ∧ SameBlocks s s' ∧ s'.sched = [] := by
  induction ps generalizing s vs q with
  | nil =>
    match vs, hlen with
    | [], _ => exact ⟨s, rfl, by simp, by simp, by simp, .refl s, hsched⟩
  | cons p ps ih =>
    match vs, hlen with
    | v :: vs, hlen =>
      have hv : s.get? p = some v := hl 0 p v rfl rfl
      simp only [mapXSeq, applyUntil]
      rw [Exec.bind_ok (load_ok hv)]
      cases hf : f q v with
      | none =>
        refine ⟨s, ?_, ?_, ?_, ?_, .refl s, hsched⟩
        · simp only
          rw [Exec.bind_throw (s' := s)]
          simp [throwing, hf]
        · simp
        · simp
        · simp
      | some r =>
        obtain ⟨w, q'⟩ := r
        have hthrow : throwing f q v s = .ok (w, q') s := by simp [throwing, hf]
        rw [Exec.bind_ok hthrow]
        obtain ⟨s1, h1, h2, h3, h4⟩ := assignCell_ok hv w (.inl hsched)
        rw [Exec.bind_ok h1]
        rw [List.nodup_cons] at hnd
        obtain ⟨s', e1, e2, e3, e4, e5, e6⟩ := ih vs q' s1 (by simpa using hlen)
          (by
            intro i x u hx hu
            rw [St.get?_eq_some, h2, if_neg, ← St.get?_eq_some]
            · exact hl (i + 1) x u (by simpa using hx) (by simpa using hu)
            · rintro rfl; exact hnd.1 (List.mem_of_getElem? hx))
          hnd.2 (by rw [h4, hsched]; rfl)
        refine ⟨s', e1, ?_, ?_, ?_, h3.trans e5, e6⟩
        · intro i x hx hi
          cases i with
          | zero =>
            simp only [List.getElem?_cons_zero, Option.some.injEq] at hx ⊢
            subst hx
            rw [St.get?_eq_some, e4 p hnd.1, h2, if_pos rfl]
          | succ i =>
            simp only [List.getElem?_cons_succ] at hx ⊢
            exact e2 i x hx (by simpa using hi)
        · intro i x hx hi
          cases i with
          | zero => simp at hi
          | succ i =>
            simp only [List.getElem?_cons_succ] at hx
            rw [e3 i x hx (by simpa using hi)]
            unfold St.get?
            rw [h2, if_neg]
            rintro rfl; exact hnd.1 (List.mem_of_getElem? hx)
        · intro x hx
          rw [List.mem_cons, not_or] at hx
          rw [e4 x hx.2, h2, if_neg hx.1]

end MultiArray

namespace MultiArray
open Spec
variable {T : Type}

/-! ### Copies whose writes never hit an element still to be read -/

theorem copySeq_fwd (ps : List (Ptr × Ptr)) (s : St T)
    (hsrc : ∀ p ∈ ps, ∃ v, s.get? p.1 = some v) (hdst : ∀ p ∈ ps, ∃ v, s.get? p.2 = some v)
    (hnd : (ps.map Prod.snd).Nodup) (hsafe : ps.Pairwise (fun p q => p.2 ≠ q.1)) (hthrow : NoThrow ps.length s.sched) :
    ∃ s', copySeq ps s = .ok () s' ∧ (∀ p ∈ ps, s'.cell? p.2 = s.cell? p.1) ∧
      (∀ q, q ∉ ps.map Prod.snd → s'.cell? q = s.cell? q) ∧ SameBlocks s s' ∧ s'.sched = s.sched.drop ps.length := by
  induction ps generalizing s with
  | nil => exact ⟨s, rfl, by simp, by simp, .refl s, by simp⟩
  | cons p ps ih =>
    obtain ⟨a, b⟩ := p
    obtain ⟨v, hv⟩ := hsrc (a, b) (by simp)
    obtain ⟨u, hu⟩ := hdst (a, b) (by simp)
    obtain ⟨hs1, hs2⟩ := noThrow_succ hthrow
    obtain ⟨s1, h1, h2, h3, h4⟩ := assignCell_ok hu v hs1
    rw [List.map_cons, List.nodup_cons] at hnd
    rw [List.pairwise_cons] at hsafe
    have hget : ∀ q x, s.get? q = some x → ∃ y, s1.get? q = some y := by
      intro q x hx
      by_cases hq : q = b
      · exact ⟨v, by rw [St.get?_eq_some, h2, if_pos hq]⟩
      · exact ⟨x, by rw [St.get?_eq_some, h2, if_neg hq]; exact St.get?_eq_some.mp hx⟩
    obtain ⟨s', e1, e2, e3, e4, e5⟩ := ih s1
      (fun q hq => by obtain ⟨x, hx⟩ := hsrc q (by simp [hq]); exact hget _ x hx)
      (fun q hq => by obtain ⟨x, hx⟩ := hdst q (by simp [hq]); exact hget _ x hx)
      hnd.2 hsafe.2 (by rw [h4]; exact hs2)
    refine ⟨s', ?_, ?_, ?_, h3.trans e4, ?_⟩
    · simp only [copySeq]
      rw [Exec.bind_ok (load_ok hv), Exec.bind_ok h1, e1]
    · intro q hq
      rcases List.mem_cons.mp hq with rfl | hq
      · rw [e3 _ hnd.1, h2, if_pos rfl]
        exact (St.get?_eq_some.mp hv).symm
      · rw [e2 q hq, h2, if_neg]
        exact (hsafe.1 q hq).symm
    · intro q hq
      rw [List.map_cons, List.mem_cons, not_or] at hq
      rw [e3 q hq.2, h2, if_neg hq.1]
    · rw [e5, h4, List.length_cons]
      simp

/-- What a sequence of copies computes when sources and destinations may coincide in any way. -/
theorem copySeq_overlap (ps : List (Ptr × Ptr)) (s : St T)
    (hsrc : ∀ p ∈ ps, ∃ v, s.get? p.1 = some v) (hdst : ∀ p ∈ ps, ∃ v, s.get? p.2 = some v)
    (hnd : (ps.map Prod.snd).Nodup) (hthrow : NoThrow ps.length s.sched) :
    ∃ s', copySeq ps s = .ok () s' ∧
      (∀ l1 p l2, ps = l1 ++ p :: l2 → ((∀ q ∈ l1, q.2 ≠ p.1) → s'.cell? p.2 = s.cell? p.1) ∧
        (∀ q ∈ l1, q.2 = p.1 → s'.cell? p.2 = s'.cell? q.2)) ∧
      (∀ q, q ∉ ps.map Prod.snd → s'.cell? q = s.cell? q) ∧ SameBlocks s s' := by
  induction ps generalizing s with
  | nil => exact ⟨s, rfl, by simp, by simp, .refl s⟩
  | cons p ps ih =>
    obtain ⟨a, b⟩ := p
    obtain ⟨v, hv⟩ := hsrc (a, b) (by simp)
    obtain ⟨u, hu⟩ := hdst (a, b) (by simp)
    obtain ⟨hs1, hs2⟩ := noThrow_succ hthrow
    obtain ⟨s1, h1, h2, h3, h4⟩ := assignCell_ok hu v hs1
    rw [List.map_cons, List.nodup_cons] at hnd
    have hget : ∀ q x, s.get? q = some x → ∃ y, s1.get? q = some y := by
      intro q x hx
      by_cases hq : q = b
      · exact ⟨v, by rw [St.get?_eq_some, h2, if_pos hq]⟩
      · exact ⟨x, by rw [St.get?_eq_some, h2, if_neg hq]; exact St.get?_eq_some.mp hx⟩
    obtain ⟨s', e1, e2, e3, e4⟩ := ih s1
      (fun q hq => by obtain ⟨x, hx⟩ := hsrc q (by simp [hq]); exact hget _ x hx)
      (fun q hq => by obtain ⟨x, hx⟩ := hdst q (by simp [hq]); exact hget _ x hx)
      hnd.2 (by rw [h4]; exact hs2)
    refine ⟨s', ?_, ?_, ?_, h3.trans e4⟩
    · simp only [copySeq]
      rw [Exec.bind_ok (load_ok hv), Exec.bind_ok h1, e1]
    · intro l1 p l2 hsplit
      cases l1 with
      | nil =>
        simp only [List.nil_append, List.cons.injEq] at hsplit
        obtain ⟨rfl, rfl⟩ := hsplit
        refine ⟨fun _ => ?_, by simp⟩
        rw [e3 _ hnd.1, h2, if_pos rfl]
        exact (St.get?_eq_some.mp hv).symm
      | cons x l1 =>
        simp only [List.cons_append, List.cons.injEq] at hsplit
        obtain ⟨rfl, hsplit⟩ := hsplit
        obtain ⟨f1, f2⟩ := e2 l1 p l2 hsplit
        refine ⟨fun hq => ?_, fun q hq he => ?_⟩
        · rw [f1 (fun q hq' => hq q (by simp [hq'])), h2, if_neg]
          exact (hq (a, b) (by simp)).symm
        · rcases List.mem_cons.mp hq with rfl | hq
          · have hne : ∀ q ∈ l1, q.2 ≠ p.1 := by
              intro q' hq' he'
              apply hnd.1
              rw [show b = q'.2 from he.trans he'.symm, hsplit]
              exact List.mem_map.mpr ⟨q', by simp [hq'], rfl⟩
            rw [f1 hne, e3 _ hnd.1]
            exact congrArg _ he.symm
          · exact f2 q hq he
    · intro q hq
      rw [List.map_cons, List.mem_cons, not_or] at hq
      rw [e3 q hq.2, h2, if_neg hq.1]

theorem allPos_pairwise (es : List Nat) : (allPos es).Pairwise (fun j k => rowMajor es j < rowMajor es k) := by
  have h := List.pairwise_lt_range (n := es.prod)
  rw [← allPos_rank, List.pairwise_map] at h
  exact h

/-- Copy between handles whose writes never hit an element still to be read. -/
theorem copy_fwd {s : St T} {dst src : Desc} (h : CopySetup s dst src)
    (hsafe : ∀ j k, InShape dst.extents j → InShape dst.extents k → rowMajor dst.extents j < rowMajor dst.extents k →
      posAddr dst j ≠ posAddr src k)
    (hthrow : NoThrow dst.extents.prod s.sched) :
    ∃ s', copySeq (copyPairs src dst) s = .ok () s' ∧
      (∀ k, InShape dst.extents k → elemAt s' dst k = elemAt s src k) ∧
      (∀ p, Outside dst p → s'.cell? p = s.cell? p) ∧ SameBlocks s s' ∧ s'.sched = s.sched.drop dst.extents.prod := by
  obtain ⟨s', h1, h2, h3, h4, h5⟩ := copySeq_fwd (copyPairs src dst) s h.live1 h.live2 (by rw [h.snd]; exact h.nd)
    (by
      rw [copyPairs_eq_map _ _ h.ws h.wd h.ext, List.pairwise_map]
      refine List.Pairwise.imp_of_mem ?_ (allPos_pairwise dst.extents)
      intro j k hj hk hjk
      exact hsafe j k ((mem_allPos _ _).mp hj) ((mem_allPos _ _).mp hk) hjk)
    (by rw [h.length]; exact hthrow)
  refine ⟨s', h1, ?_, ?_, h4, by rw [h5, h.length]⟩
  · intro k hk
    have := h2 (address src (atPos src.bases k), address dst (atPos dst.bases k))
      (by rw [copyPairs_eq_map _ _ h.ws h.wd h.ext]; exact List.mem_map.mpr ⟨k, (mem_allPos _ _).mpr hk, rfl⟩)
    simp only [elemAt, St.get?]
    rw [this]
  · intro p hp
    apply h3
    rw [h.snd, ← outside_iff]
    exact hp

/-- Copy between handles that overlap in any way. -/
theorem copy_overlap {s : St T} {dst src : Desc} (h : CopySetup s dst src) (hthrow : NoThrow dst.extents.prod s.sched) :
    ∃ s', copySeq (copyPairs src dst) s = .ok () s' ∧
      (∀ k, InShape dst.extents k →
        (∀ j, InShape dst.extents j → rowMajor dst.extents j < rowMajor dst.extents k → posAddr dst j ≠ posAddr src k) →
        elemAt s' dst k = elemAt s src k) ∧
      (∀ j k, InShape dst.extents j → InShape dst.extents k → rowMajor dst.extents j < rowMajor dst.extents k →
        posAddr dst j = posAddr src k → elemAt s' dst k = elemAt s' dst j) ∧
      (∀ p, Outside dst p → s'.cell? p = s.cell? p) ∧ SameBlocks s s' := by
  obtain ⟨s', h1, h2, h3, h4⟩ := copySeq_overlap (copyPairs src dst) s h.live1 h.live2 (by rw [h.snd]; exact h.nd)
    (by rw [h.length]; exact hthrow)
  have hpw := allPos_pairwise dst.extents
  have split : ∀ k, InShape dst.extents k → ∃ l1 l2, allPos dst.extents = l1 ++ k :: l2 :=
    fun k hk => List.append_of_mem ((mem_allPos _ _).mpr hk)
  let f : List Nat → Ptr × Ptr := fun k => (posAddr src k, posAddr dst k)
  have hmap : ∀ l1 k l2, allPos dst.extents = l1 ++ k :: l2 → copyPairs src dst = l1.map f ++ f k :: l2.map f := by
    intro l1 k l2 hs
    rw [copyPairs_eq_map _ _ h.ws h.wd h.ext, hs, List.map_append, List.map_cons]
    rfl
  refine ⟨s', h1, ?_, ?_, ?_, h4⟩
  · intro k hk hno
    obtain ⟨l1, l2, hs⟩ := split k hk
    have := (h2 _ _ _ (hmap l1 k l2 hs)).1 (by
      intro q hq
      obtain ⟨j, hj, rfl⟩ := List.mem_map.mp hq
      rw [hs, List.pairwise_append] at hpw
      exact hno j ((mem_allPos _ _).mp (by rw [hs]; simp [hj])) (hpw.2.2 j hj k (by simp)))
    show s'.get? (posAddr dst k) = s.get? (posAddr src k)
    unfold St.get?
    rw [this]
  · intro j k hj hk hlt he
    obtain ⟨l1, l2, hs⟩ := split k hk
    have hj1 : j ∈ l1 := by
      have hm := (mem_allPos _ _).mpr hj
      rw [hs, List.mem_append, List.mem_cons] at hm
      rcases hm with hm | rfl | hm
      · exact hm
      · omega
      · rw [hs, List.pairwise_append, List.pairwise_cons] at hpw
        have := hpw.2.1.1 j hm
        omega
    have := (h2 _ _ _ (hmap l1 k l2 hs)).2 (f j) (List.mem_map.mpr ⟨j, hj1, rfl⟩) he
    show s'.get? (posAddr dst k) = s'.get? (posAddr dst j)
    unfold St.get?
    rw [this]
  · intro p hp
    apply h3
    rw [h.snd, ← outside_iff]
    exact hp

theorem rowMajor_lt_of_head {e : Nat} {es : List Nat} {x y : Nat} {j k : List Nat} (hj : InShape es j) (h : x < y) :
    rowMajor (e :: es) (x :: j) < rowMajor (e :: es) (y :: k) := by
  have h1 := rowMajor_lt es j hj
  simp only [rowMajor]
  have h2 : (x + 1) * es.prod ≤ y * es.prod := Nat.mul_le_mul_right _ h
  rw [Nat.succ_mul] at h2
  omega

/-- Two window positions that denote the same element: the destination position is not before the source position. -/
theorem movesToFront_rank (rs qs : List IndexRange) (bs : List Int) (h : MovesToFront rs qs bs) (es j k : List Nat)
    (hlen : es.length = numRanged rs) (hnz : ∀ r ∈ rs, r.stride_ ≠ 0) (hj : InShape es j) (hk : InShape es k)
    (heq : selected rs bs (j.map (fun (x : Nat) => (x : Int))) = selected qs bs (k.map (fun (x : Nat) => (x : Int)))) :
    rowMajor es k ≤ rowMajor es j := by
  induction rs generalizing qs bs es j k with
  | nil =>
    have hes : es = [] := List.eq_nil_of_length_eq_zero (by rw [hlen]; rfl)
    subst hes
    simp [rowMajor]
  | cons r rs ih =>
    match qs, bs, h with
    | q :: qs, b :: bs, h =>
      simp only [MovesToFront] at h
      rcases h with ⟨hr, hq, h⟩ | ⟨hr, hq, ht, h⟩
      · rw [numRanged_cons, hr] at hlen
        simp only [selected, hr, hq, if_true, List.cons.injEq] at heq
        exact ih qs bs (h heq.1) es j k (by simpa using hlen) (fun r hr => hnz r (by simp [hr])) hj hk heq.2
      · rw [numRanged_cons, hr] at hlen
        simp only [Bool.false_eq_true, if_false] at hlen
        rw [Nat.add_comm] at hlen
        match es, j, k, hj, hk, hlen with
        | e :: es, x :: j, y :: k, hj, hk, hlen =>
          simp only [selected, hr, hq, List.map_cons, Bool.false_eq_true, if_false, List.cons.injEq] at heq
          obtain ⟨he, heq⟩ := heq
          have hlen' : es.length = numRanged rs := by simpa using hlen
          have ht0 := hnz r (by simp)
          rcases h with ⟨hs, h⟩ | h
          · have hxy : x = y := by
              rw [hs, ht] at he
              have : (x : Int) * q.stride_ = (y : Int) * q.stride_ := by linarith
              rw [ht] at ht0
              exact_mod_cast mul_right_cancel₀ ht0 this
            subst hxy
            simp only [rowMajor]
            have := ih qs bs h es j k hlen' (fun r hr => hnz r (by simp [hr])) hj.2 hk.2 heq
            omega
          · have hxy : y < x := by
              rw [← ht] at he
              have h1 : ((x : Int) - (y : Int)) * r.stride_ = rangeStart q b - rangeStart r b := by linarith
              rw [← h1] at h
              have h2 : ((x : Int) - y) * r.stride_ * r.stride_ = ((x : Int) - y) * (r.stride_ * r.stride_) := by ring
              rw [h2] at h
              have h3 : 0 < r.stride_ * r.stride_ := mul_self_pos.mpr ht0
              have := (mul_pos_iff_of_pos_right h3).mp h
              omega
            exact le_of_lt (rowMajor_lt_of_head hk.2 hxy)

theorem numRanged_of_view {g : IndexGen} {d : Desc} {v v' : View} (hw : WellShaped d) (hr : g.ranges.length = d.extents.length)
    (h : generateArrayView true g d = .ok v) (hh : ViewHistory v v') : v'.extents.length = numRanged g.ranges := by
  obtain ⟨hleg, _, rfl⟩ := genView_ok hw hr h
  obtain ⟨_, _, h2, _⟩ := ViewHistory_facts hh (theView_wf g d hw hleg)
  rw [h2, theView_extents, List.length_map, selExtents_length _ _ _ hleg.length.1 hleg.length.2]

theorem relPos_atPos (bs : List Int) (k : List Nat) (h : bs.length = k.length) : relPos (atPos bs k) bs = k.map (fun (x : Nat) => (x : Int)) := by
  induction bs generalizing k with
  | nil => match k, h with | [], _ => rfl
  | cons b bs ih => match k, h with
    | x :: k, h =>
      have := ih k (by simpa using h)
      simp only [relPos, atPos] at this ⊢
      simp only [List.zipWith_cons_cons, this, List.map_cons]
      congr 1
      omega

theorem _root_.MultiArray.Spec.InShape.length' {es k : List Nat} (h : InShape es k) : k.length = es.length := by
  induction es generalizing k with
  | nil => match k, h with | [], _ => rfl
  | cons e es ih => match k, h with
    | x :: k, h => simp [ih h.2]

/-- The address of the element at a position of a (reindexed) view. -/
theorem posAddr_view {g : IndexGen} {d : Desc} {v v' : View} (hw : WellShaped d) (hr : g.ranges.length = d.extents.length)
    (h : generateArrayView true g d = .ok v) (hh : ViewHistory v v') (k : List Nat) (hk : InShape v'.extents k) :
    posAddr v'.desc k = address d (selected g.ranges d.bases (k.map (fun (x : Nat) => (x : Int)))) := by
  obtain ⟨hleg, _, rfl⟩ := genView_ok hw hr h
  obtain ⟨w, _, _, _⟩ := ViewHistory_facts hh (theView_wf g d hw hleg)
  have hb : v'.bases.length = v'.extents.length := w.wellShaped.2
  show address v'.desc (atPos v'.bases k) = _
  have hin := inBox_atPos hb hk
  rw [view_address hw hleg hh _ hin.length.1, relPos_atPos _ _ (by rw [hb, hk.length'])]

end MultiArray

namespace MultiArray
open Spec

theorem inBox_zero {es k : List Nat} (h : InShape es k) : InBox (List.replicate es.length 0) es (k.map (fun (x : Nat) => (x : Int))) := by
  induction es generalizing k with
  | nil => match k, h with | [], _ => trivial
  | cons e es ih => match k, h with
    | x :: k, h =>
      have hx : x < e := h.1
      refine ⟨?_, ?_, ih h.2⟩
      · show (0 : Int) ≤ (x : Int); omega
      · show (x : Int) < 0 + (e : Int); omega

/-- A position of a view selects an in-range index of the viewed array. -/
theorem view_selected_inBox {n : Nat} {root : ARef} (hr : Reachable n root) {d : Desc} (h : Handle root d) {g : IndexGen}
    (hlen : g.ranges.length = d.extents.length) {v : View} (hno : StaysInside d g v)
    (hv : generateArrayView true g d = .ok v) (k : List Nat) (hk : InShape v.extents k) :
    InBox d.bases d.extents (selected g.ranges d.bases (k.map (fun (x : Nat) => (x : Int)))) := by
  have hw : WellShaped d := (h.embedding hr.wf).1
  obtain ⟨hleg, hnum, rfl⟩ := genView_ok hw hlen hv
  apply hno
  have hvb : (theView g d).bases = List.replicate (theView g d).extents.length 0 := by simp [theView, View.mkView]
  rw [hvb]
  exact inBox_zero hk

end MultiArray

namespace MultiArray
open Spec
variable {T : Type}

theorem elemAt_eq_posAddr (s : St T) (d : Desc) (k : List Nat) : elemAt s d k = s.get? (posAddr d k) := rfl

theorem built_idxGen (xs : List IndexArg) (h : ∀ i, IndexArg.index i ∈ xs → -(2 ^ 63) < i ∧ i < 2 ^ 63 - 2) : Built (idxGen xs) := by
  induction xs using List.reverseRecOn with
  | nil => exact .empty
  | append_singleton xs x ih =>
    have ih' := ih (fun i hi => h i (by simp [hi]))
    cases x with
    | range r => exact .range ih' (idxGen_pushRange xs r)
    | index i =>
      obtain ⟨h1, h2⟩ := h i (by simp)
      exact .index ih' h1 h2 (idxGen_pushIdx xs i)

theorem built_ranges (r : IndexRange) (rs : List IndexRange) : Built ⟨rs.length + 1, rs.length + 1, r :: rs⟩ := by
  have := built_idxGen ((r :: rs).map IndexArg.range) (by simp)
  have e1 : ((r :: rs).map IndexArg.range).map IndexArg.toRange = r :: rs := by
    rw [List.map_map]
    conv_rhs => rw [← List.map_id (r :: rs)]
    rfl
  have e2 : (((r :: rs).map IndexArg.range).filter IndexArg.isRange).length = rs.length + 1 := by
    rw [List.filter_eq_self.mpr]
    · simp
    · intro a ha; obtain ⟨q, _, rfl⟩ := List.mem_map.mp ha; rfl
  simp only [idxGen, e1, e2, genList] at this
  simpa using this

theorem movesToFront_refl (rs : List IndexRange) (bs : List Int) (h : bs.length = rs.length) : MovesToFront rs rs bs := by
  induction rs generalizing bs with
  | nil => match bs, h with | [], _ => trivial
  | cons r rs ih => match bs, h with
    | b :: bs, h =>
      have := ih bs (by simpa using h)
      cases hd : r.degenerate_
      · exact .inr ⟨hd, hd, rfl, .inl ⟨rfl, this⟩⟩
      · exact .inl ⟨hd, hd, fun _ => this⟩

/-- The view of the rows `[s, f)`. -/
theorem rows_view {d : Desc} (hw : WellShaped d) {e : Nat} {es : List Nat} {b : Int} {bs : List Int} (hext : d.extents = e :: es) (hbas : d.bases = b :: bs)
    (s f : Int) (h1 : b ≤ s) (h2 : s ≤ f) (h3 : f ≤ b + (e : Int)) (h4 : -(2 ^ 63) ≤ b) (h5 : b + (e : Int) ≤ 2 ^ 63 - 1) :
    d.slice true (rowsGen es.length s f) = .ok (theView (rowsGen es.length s f) d) ∧
    (theView (rowsGen es.length s f) d).extents = (f - s).toNat :: es ∧
    Built (rowsGen es.length s f) ∧ NoOverrun d.bases d.extents (rowsGen es.length s f).ranges ∧
    ∀ x k, InShape (theView (rowsGen es.length s f) d).extents (x :: k) →
      posAddr (theView (rowsGen es.length s f) d).desc (x :: k) = address d ((s + (x : Int)) :: atPos bs k) := by
  have hb : bs.length = es.length := by have := hw.2; rw [hext, hbas] at this; simpa using this
  obtain ⟨a1, a2, a3, _, a5⟩ := default_lists es bs hb
  have hst : rangeStart (IndexRange.mk3 s f) b = s := by
    show (if s = -(2 ^ 63) then b else s) = s
    split <;> omega
  have hfi : rangeFinish (IndexRange.mk3 s f) b e = f := by
    show (if f = 2 ^ 63 - 1 then b + (e : Int) else f) = f
    split <;> omega
  have hdd : (IndexRange.mk3 s f).degenerate_ = false := rfl
  have hds : (IndexRange.mk3 s f).stride_ = 1 := rfl
  have hleg : LegalRanges d.bases d.extents (rowsGen es.length s f).ranges := by
    rw [hext, hbas]
    refine ⟨⟨by simp [hds], by rw [hst]; omega, ?_⟩, a1⟩
    rw [hfi, hds]; simp only [show ¬ (1 : Int) < 0 by omega, if_false]; omega
  have hnum : numRanged (rowsGen es.length s f).ranges = (rowsGen es.length s f).numDims := by
    show numRanged (IndexRange.mk3 s f :: List.replicate es.length IndexRange.default) = es.length + 1
    rw [numRanged_cons, a2, hdd]; simp; omega
  have hok := genView_legal true (rowsGen es.length s f) d hw hleg hnum
  have hE : (theView (rowsGen es.length s f) d).extents = (f - s).toNat :: es := by
    rw [theView_extents, hext, hbas]
    simp only [rowsGen, selExtents, hdd, Bool.false_eq_true, if_false, List.map_cons, a3, hst, hfi, hds]
    congr 1
    have k1 := viewLen_pos s f 1 (by omega)
    have k2 := viewLen_nonneg s f 1 (by omega)
    have k3 := k1 (viewLen s f 1).toNat
    have k4 := k1 (viewLen s f 1 - 1).toNat
    omega
  refine ⟨hok, hE, ?_, ?_, ?_⟩
  · have := built_ranges (IndexRange.mk3 s f) (List.replicate es.length IndexRange.default)
    simpa [rowsGen] using this
  · rw [hext, hbas]
    refine ⟨by simp [hds], ?_⟩
    have : ∀ (bs : List Int) (es : List Nat) (m : Nat), NoOverrun bs es (List.replicate m IndexRange.default) := by
      intro bs es m
      induction m generalizing bs es with
      | zero => cases bs <;> cases es <;> simp [NoOverrun]
      | succ m ih =>
        match bs, es with
        | [], _ => simp [NoOverrun]
        | _ :: _, [] => simp [NoOverrun]
        | b :: bs, e :: es => exact ⟨by simp [IndexRange.default], ih bs es⟩
    exact this bs es es.length
  · intro x k hk
    have hlen : (rowsGen es.length s f).ranges.length = d.extents.length := by simp [rowsGen, hext]
    rw [posAddr_view hw hlen hok .refl _ hk, hbas]
    rw [hE] at hk
    simp only [rowsGen, List.map_cons, selected, hdd, Bool.false_eq_true, if_false, hst, hds, Int.mul_one]
    have := a5 k hk.2
    rw [← this]
    rfl

end MultiArray
