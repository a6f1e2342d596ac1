import Verif.SpecCompare
import Verif.Lemmas.Compare
import Verif.Lemmas.Flat
import Verif.Lemmas.Work

/- Proofs about comparisons with arbitrary element comparisons. -/
set_option autoImplicit false

namespace MultiArray
open Spec
variable {T : Type}

/-- Compare pairs of elements until one pair differs. -/
def allSeq (elt : Ptr → Ptr → Exec T Bool) : List (Ptr × Ptr) → Exec T Bool
  | [] => pure true
  | p :: ps => do
    if ← elt p.1 p.2 then allSeq elt ps else pure false

theorem allSeq_append (elt : Ptr → Ptr → Exec T Bool) (l1 l2 : List (Ptr × Ptr)) :
    allSeq elt (l1 ++ l2) = (do if ← allSeq elt l1 then allSeq elt l2 else pure false) := by
  induction l1 with
  | nil => simp [allSeq]
  | cons p l1 ih =>
    simp only [List.cons_append, allSeq, ih, bind_assoc]
    congr 1
    funext r
    cases r <;> simp

theorem stdEqualX_spec (elt : Ptr → Ptr → Exec T Bool) (eqv : It → It → Exec T Bool) (D D' : Desc) (b b' : Int) (F : Nat → List (Ptr × Ptr)) (m j : Nat)
    (h : ∀ k, j ≤ k → k < j + m → eqv ⟨b + (k : Int), D⟩ ⟨b' + (k : Int), D'⟩ = allSeq elt (F k)) :
    stdEqualX eqv m ⟨b + (j : Int), D⟩ ⟨b' + (j : Int), D'⟩ = allSeq elt ((List.range' j m).flatMap F) := by
  induction m generalizing j with
  | zero => simp [stdEqualX, allSeq]
  | succ m ih =>
    simp only [stdEqualX, It.increment]
    rw [h j (by omega) (by omega), List.range'_succ, List.flatMap_cons, allSeq_append,
      show b + (j : Int) + 1 = b + ((j + 1 : Nat) : Int) by push_cast; ring,
      show b' + (j : Int) + 1 = b' + ((j + 1 : Nat) : Int) by push_cast; ring,
      ih (j + 1) (fun k h1 h2 => h k (by omega) (by omega))]

theorem posAddr_cons (p : Ptr) (e : Nat) (es : List Nat) (t : Int) (ss : List Int) (b : Int) (bs : List Int) (k : Nat) (ks : List Nat) :
    posAddr ⟨p, e :: es, t :: ss, b :: bs⟩ (k :: ks) = posAddr (subAt p es t ss b bs k) ks := by
  simp [posAddr, address, subAt, atPos, dot, Ptr.add_add]

theorem equalRefX_eq (dbg : Bool) (elt : Ptr → Ptr → Exec T Bool) (n : Nat) (a b : Desc) (ha : WellShaped a) (hb : WellShaped b)
    (hn : a.extents.length = n) (he : a.extents = b.extents) :
    equalRefX dbg elt n a b = allSeq elt ((allPos a.extents).map (fun k => (posAddr a k, posAddr b k))) := by
  induction n generalizing a b with
  | zero =>
    obtain ⟨p, es, ss, bs⟩ := a
    obtain ⟨p', es', ss', bs'⟩ := b
    simp only at he hn
    subst he
    rw [List.length_eq_zero_iff] at hn
    subst hn
    match ss, bs, ss', bs', ha, hb with
    | [], [], [], [], _, _ =>
      have : ∀ x : Exec T Bool, x = (do if ← x then pure true else pure false) := by
        intro x
        conv_lhs => rw [← bind_pure x]
        congr 1
        funext r
        cases r <;> rfl
      simpa [equalRefX, allPos, allSeq, posAddr, atPos, address, dot] using this (elt p p')
  | succ n ih =>
    obtain ⟨p, es, ss, bs⟩ := a
    obtain ⟨p', es', ss', bs'⟩ := b
    simp only at he
    subst he
    match es, ss, bs, ss', bs', ha, hb, hn with
    | e :: es, t :: ss, b :: bs, t' :: ss', b' :: bs', ha, hb, hn =>
      simp only [equalRefX, if_true, begin_cons, end_cons, Exec.lift_ok, pure_bind]
      rw [show (It.sub ⟨b + (e : Int), (⟨p, e :: es, t :: ss, b :: bs⟩ : Desc)⟩ ⟨b, ⟨p, e :: es, t :: ss, b :: bs⟩⟩).toNat = e
          by simp [It.sub, It.distanceTo]]
      have := stdEqualX_spec elt (fun i j => do
          let x ← Exec.lift (i.deref dbg)
          let y ← Exec.lift (j.deref dbg)
          equalRefX dbg elt n x y) ⟨p, e :: es, t :: ss, b :: bs⟩ ⟨p', e :: es, t' :: ss', b' :: bs'⟩ b b'
          (fun k => (allPos es).map (fun ks => (posAddr (subAt p es t ss b bs k) ks, posAddr (subAt p' es t' ss' b' bs' k) ks))) e 0 (by
            intro k _ hk
            rw [It.deref_in dbg p e es t ss b bs k (by omega), It.deref_in dbg p' e es t' ss' b' bs' k (by omega)]
            simp only [Exec.lift_ok, pure_bind]
            rw [ih (subAt p es t ss b bs k) (subAt p' es t' ss' b' bs' k) (wellShaped_subAt ha k) (wellShaped_subAt hb k)
              (by simpa [subAt] using hn) rfl]
            rfl)
      simp only [Nat.cast_zero, add_zero] at this
      rw [this]
      simp only [allPos, List.map_flatMap, List.map_map, List.range_eq_range', Function.comp_def, posAddr_cons]

theorem flatEqual_eq (elt : Ptr → Ptr → Exec T Bool) (a b : Desc) (ks : List (List Nat)) :
    flatEqual elt a b ks = allSeq elt (ks.map (fun k => (posAddr a k, posAddr b k))) := by
  induction ks with
  | nil => rfl
  | cons k ks ih => simp only [flatEqual, List.map_cons, allSeq, ih]

theorem stdLexX_spec {α : Type} (ltR : It → It → Exec T Bool) (lt : α → α → Exec T Bool) (D D' : Desc) (b b' : Int) (F G : Nat → α)
    (m m' j : Nat)
    (h : ∀ k, j ≤ k → k < j + m → k < j + m' → ltR ⟨b + (k : Int), D⟩ ⟨b' + (k : Int), D'⟩ = lt (F k) (G k) ∧
      ltR ⟨b' + (k : Int), D'⟩ ⟨b + (k : Int), D⟩ = lt (G k) (F k)) :
    stdLexCompareX ltR m m' ⟨b + (j : Int), D⟩ ⟨b' + (j : Int), D'⟩ =
      lexRun lt ((List.range' j m).map F) ((List.range' j m').map G) := by
  induction m generalizing m' j with
  | zero =>
    cases m' with
    | zero => simp [stdLexCompareX, lexRun]
    | succ m' => simp [stdLexCompareX, lexRun, List.range'_succ]
  | succ m ih =>
    cases m' with
    | zero => simp [stdLexCompareX, lexRun]
    | succ m' =>
      obtain ⟨h1, h2⟩ := h j (by omega) (by omega) (by omega)
      have := ih m' (j + 1) (fun k k1 k2 k3 => h k (by omega) (by omega) (by omega))
      simp only [stdLexCompareX, It.increment]
      rw [h1, h2,
        show b + (j : Int) + 1 = b + ((j + 1 : Nat) : Int) by push_cast; ring,
        show b' + (j : Int) + 1 = b' + ((j + 1 : Nat) : Int) by push_cast; ring, this]
      simp only [List.range'_succ, List.map_cons, lexRun]

theorem lessRefX_eq (dbg : Bool) (elt : Ptr → Ptr → Exec T Bool) (n : Nat) (a b : Desc) (ha : WellShaped a) (hb : WellShaped b)
    (hna : a.extents.length = n) (hnb : b.extents.length = n) :
    lessRefX dbg elt n a b = nestedLess elt n (nested n a.extents (posAddr a)) (nested n b.extents (posAddr b)) := by
  induction n generalizing a b with
  | zero =>
    obtain ⟨p, es, ss, bs⟩ := a
    obtain ⟨p', es', ss', bs'⟩ := b
    simp only [List.length_eq_zero_iff] at hna hnb
    subst hna; subst hnb
    match ss, bs, ss', bs', ha, hb with
    | [], [], [], [], _, _ => simp [lessRefX, nested, nestedLess, posAddr, atPos, address, dot]
  | succ n ih =>
    obtain ⟨p, es, ss, bs⟩ := a
    obtain ⟨p', es', ss', bs'⟩ := b
    match es, ss, bs, es', ss', bs', ha, hb, hna, hnb with
    | e :: es, t :: ss, b :: bs, e' :: es', t' :: ss', b' :: bs', ha, hb, hna, hnb =>
      simp only [lessRefX, begin_cons, end_cons, Exec.lift_ok, pure_bind]
      rw [show (It.sub ⟨b + (e : Int), (⟨p, e :: es, t :: ss, b :: bs⟩ : Desc)⟩ ⟨b, ⟨p, e :: es, t :: ss, b :: bs⟩⟩).toNat = e
        by simp [It.sub, It.distanceTo],
        show (It.sub ⟨b' + (e' : Int), (⟨p', e' :: es', t' :: ss', b' :: bs'⟩ : Desc)⟩
          ⟨b', ⟨p', e' :: es', t' :: ss', b' :: bs'⟩⟩).toNat = e'
        by simp [It.sub, It.distanceTo]]
      have := stdLexX_spec (fun i j => do
          let x ← Exec.lift (i.deref dbg)
          let y ← Exec.lift (j.deref dbg)
          lessRefX dbg elt n x y) (nestedLess elt n)
        ⟨p, e :: es, t :: ss, b :: bs⟩ ⟨p', e' :: es', t' :: ss', b' :: bs'⟩ b b'
        (fun x => nested n es (posAddr (subAt p es t ss b bs x))) (fun x => nested n es' (posAddr (subAt p' es' t' ss' b' bs' x))) e e' 0 (by
          intro k _ hk hk'
          rw [It.deref_in dbg p e es t ss b bs k (by omega), It.deref_in dbg p' e' es' t' ss' b' bs' k (by omega)]
          simp only [Exec.lift_ok, pure_bind]
          rw [ih (subAt p es t ss b bs k) (subAt p' es' t' ss' b' bs' k) (wellShaped_subAt ha k) (wellShaped_subAt hb k)
              (by simpa [subAt] using hna) (by simpa [subAt] using hnb),
            ih (subAt p' es' t' ss' b' bs' k) (subAt p es t ss b bs k) (wellShaped_subAt hb k) (wellShaped_subAt ha k)
              (by simpa [subAt] using hnb) (by simpa [subAt] using hna)]
          exact ⟨rfl, rfl⟩)
      simp only [Nat.cast_zero, add_zero] at this
      rw [this]
      simp only [nested, nestedLess, List.range_eq_range', posAddr_cons]

/-! ### Counting comparisons -/

theorem mayThrowTimes_add (k m : Nat) : (mayThrowTimes (k + m) : Exec T Unit) = (do mayThrowTimes k; mayThrowTimes m) := by
  induction k with
  | zero => simp [mayThrowTimes]
  | succ k ih => rw [Nat.succ_add]; simp only [mayThrowTimes, ih, bind_assoc]

theorem mayThrow_heap (s : St T) : (∃ s', mayThrow s = .ok () s' ∧ s'.heap = s.heap ∧ s'.next = s.next) ∨
    ∃ s', mayThrow s = .throw s' ∧ s'.heap = s.heap ∧ s'.next = s.next := by
  unfold mayThrow
  rcases hs : s.sched with _ | ⟨_ | j, fs⟩
  · exact .inl ⟨_, rfl, rfl, rfl⟩
  · exact .inl ⟨_, rfl, rfl, rfl⟩
  · exact .inr ⟨_, rfl, rfl, rfl⟩

theorem mayThrowTimes_heap (k : Nat) (s : St T) : (∃ s', mayThrowTimes k s = .ok () s' ∧ s'.heap = s.heap ∧ s'.next = s.next) ∨
    ∃ s', mayThrowTimes k s = .throw s' ∧ s'.heap = s.heap ∧ s'.next = s.next := by
  induction k generalizing s with
  | zero => exact .inl ⟨s, rfl, rfl, rfl⟩
  | succ k ih =>
    simp only [mayThrowTimes]
    rcases mayThrow_heap s with ⟨s1, h1, h2, h3⟩ | ⟨s1, h1, h2, h3⟩
    · rw [Exec.bind_ok h1]
      rcases ih s1 with ⟨s', e1, e2, e3⟩ | ⟨s', e1, e2, e3⟩
      · exact .inl ⟨s', e1, e2.trans h2, e3.trans h3⟩
      · exact .inr ⟨s', e1, e2.trans h2, e3.trans h3⟩
    · rw [Exec.bind_throw h1]
      exact .inr ⟨s1, rfl, h2, h3⟩

/-- In every state with heap `h`, `x` makes `k` comparisons and returns `r`. -/
def Counts (h : Nat → Option (Block T)) (k : Nat) (r : Bool) (x : Exec T Bool) : Prop :=
  ∀ s : St T, s.heap = h → x s = (do mayThrowTimes k; pure r : Exec T Bool) s

theorem Counts.pure (h : Nat → Option (Block T)) (r : Bool) : Counts h 0 r (Pure.pure r) := fun s _ => by simp [mayThrowTimes]

theorem Counts.bind {h : Nat → Option (Block T)} {k m : Nat} {r r' : Bool} {x : Exec T Bool} {f : Bool → Exec T Bool} (hx : Counts h k r x)
    (hf : Counts h m r' (f r)) : Counts h (k + m) r' (x >>= f) := by
  intro s hs
  have h1 := hx s hs
  rw [mayThrowTimes_add, bind_assoc]
  rcases mayThrowTimes_heap k s with ⟨s1, e1, e2, _⟩ | ⟨s1, e1, e2, _⟩
  · rw [Exec.bind_ok e1] at h1
    rw [Exec.bind_ok e1]
    change x s = .ok r s1 at h1
    rw [Exec.bind_ok h1]
    exact hf s1 (e2.trans hs)
  · rw [Exec.bind_throw e1] at h1
    rw [Exec.bind_throw e1, Exec.bind_throw h1]

theorem Counts.cast {h : Nat → Option (Block T)} {k m : Nat} {r r' : Bool} {x : Exec T Bool} (hx : Counts h k r x) (hk : k = m) (hr : r = r') :
    Counts h m r' x := by subst hk; subst hr; exact hx

theorem Counts.not {h : Nat → Option (Block T)} {k : Nat} {r : Bool} {x : Exec T Bool} (hx : Counts h k r x) :
    Counts h k (!r) (do Pure.pure (!(← x))) :=
  Counts.bind (m := 0) (f := fun r => Pure.pure (!r)) hx (Counts.pure _ _)

theorem get?_of_heap {s s' : St T} (h : s'.heap = s.heap) (p : Ptr) : s'.get? p = s.get? p := by
  simp only [St.get?, St.cell?, h]

theorem Counts.cmpElem {s : St T} (r : T → T → Bool) {p q : Ptr} {x y : T} (hp : s.get? p = some x) (hq : s.get? q = some y) :
    Counts s.heap 1 (r x y) (Spec.cmpElem r p q) := by
  intro s1 h1
  unfold Spec.cmpElem
  rw [Exec.bind_ok (load_ok ((get?_of_heap h1 p).trans hp)), Exec.bind_ok (load_ok ((get?_of_heap h1 q).trans hq))]
  simp [mayThrowTimes]

theorem Counts.allSeq {s : St T} (r : T → T → Bool) (ps : List (Ptr × Ptr)) (vs : List (T × T))
    (hv : List.Forall₂ (fun (p : Ptr × Ptr) (v : T × T) => s.get? p.1 = some v.1 ∧ s.get? p.2 = some v.2) ps vs) :
    Counts s.heap (min vs.length ((vs.takeWhile (fun v => r v.1 v.2)).length + 1)) (vs.all (fun v => r v.1 v.2))
      (allSeq (Spec.cmpElem r) ps) := by
  induction hv with
  | nil => exact Counts.pure _ _
  | @cons p v ps vs hp _ ih =>
    simp only [MultiArray.allSeq]
    cases hr : r v.1 v.2 with
    | true =>
      refine (Counts.bind (m := min vs.length ((vs.takeWhile (fun v => r v.1 v.2)).length + 1)) (Counts.cmpElem r hp.1 hp.2)
        (r' := vs.all (fun v => r v.1 v.2)) ?_).cast ?_ ?_
      · rw [hr]; exact ih
      · simp [List.takeWhile_cons, hr]; omega
      · simp [hr]
    | false =>
      refine (Counts.bind (m := 0) (Counts.cmpElem r hp.1 hp.2) (r' := false) ?_).cast ?_ ?_
      · rw [hr]; exact Counts.pure _ _
      · simp [List.takeWhile_cons, hr]
      · simp [hr]

/-- The cost, by the Boolean comparison. -/
def costList {α : Type} (lt : α → α → Bool) (c : α → α → Nat) : List α → List α → Nat
  | x :: xs, y :: ys => c x y + if lt x y then 0 else c y x + if lt y x then 0 else costList lt c xs ys
  | _, _ => 0

def costVal (lt : T → T → Bool) : (n : Nat) → Val T n → Val T n → Nat
  | 0, _, _ => 1
  | n + 1, xs, ys => costList (lexVal lt n) (costVal lt n) xs ys

theorem rowsCost_eq {α : Type} (lt : α → α → Bool) (R : α → α → Prop) (hR : ∀ x y, lt x y = true ↔ R x y) (c c' : α → α → Nat) (hc : ∀ x y, c x y = c' x y)
    (xs ys : List α) : costList lt c xs ys = rowsCost R c' xs ys := by
  induction xs generalizing ys with
  | nil => cases ys <;> rfl
  | cons x xs ih =>
    cases ys with
    | nil => rfl
    | cons y ys =>
      simp only [costList, rowsCost, ← hR, hc, ih]

theorem lessCost_eq (lt : T → T → Bool) (n : Nat) (x y : Val T n) : lessCost lt n x y = costVal lt n x y := by
  induction n with
  | zero => rfl
  | succ n ih =>
    exact (rowsCost_eq (lexVal lt n) (ValLess lt n) (lexVal_iff lt n) (costVal lt n) (lessCost lt n) (fun x y => (ih x y).symm) x y).symm

theorem Counts.lexRun {α β : Type} {h : Nat → Option (Block T)} (lt : α → α → Exec T Bool) (l : β → β → Bool) (c : β → β → Nat) (xs ys : List α) (us vs : List β)
    (m m' : Nat) (F G : Nat → α) (F' G' : Nat → β) (j : Nat) (hxs : xs = (List.range' j m).map F) (hys : ys = (List.range' j m').map G)
    (hus : us = (List.range' j m).map F') (hvs : vs = (List.range' j m').map G')
    (hc : ∀ k, k < j + m → k < j + m' → Counts h (c (F' k) (G' k)) (l (F' k) (G' k)) (lt (F k) (G k)) ∧
      Counts h (c (G' k) (F' k)) (l (G' k) (F' k)) (lt (G k) (F k))) :
    Counts h (costList l c us vs) (lexList l us vs) (Spec.lexRun lt xs ys) := by
  induction m generalizing m' j xs ys us vs with
  | zero =>
    subst hxs hus hvs hys
    cases m' with
    | zero => exact Counts.pure _ _
    | succ m' => exact Counts.pure _ _
  | succ m ih =>
    subst hxs hus hvs hys
    cases m' with
    | zero => exact Counts.pure _ _
    | succ m' =>
      obtain ⟨h1, h2⟩ := hc j (by omega) (by omega)
      have := ih _ _ _ _ m' (j + 1) rfl rfl rfl rfl (fun k h1 h2 => hc k (by omega) (by omega))
      simp only [List.range'_succ, List.map_cons, costList, lexList, Spec.lexRun]
      cases ha : l (F' j) (G' j) with
      | true =>
        rw [ha] at h1
        exact Counts.bind (m := 0) h1 (Counts.pure _ _)
      | false =>
        rw [ha] at h1
        refine Counts.bind h1 ?_
        simp only [Bool.false_eq_true, if_false]
        cases hb : l (G' j) (F' j) with
        | true =>
          rw [hb] at h2
          exact Counts.bind (m := 0) h2 (Counts.pure _ _)
        | false =>
          rw [hb] at h2
          exact Counts.bind h2 this

theorem Counts.nestedLess {s : St T} (lt : T → T → Bool) (n : Nat) (es es' : List Nat) (hna : es.length = n) (hnb : es'.length = n)
    (A B : List Nat → Ptr) (f g : List Nat → T) (hf : ∀ k, InShape es k → s.get? (A k) = some (f k)) (hg : ∀ k, InShape es' k → s.get? (B k) = some (g k)) :
    Counts s.heap (costVal lt n (nested n es f) (nested n es' g)) (lexVal lt n (nested n es f) (nested n es' g))
      (Spec.nestedLess (Spec.cmpElem lt) n (nested n es A) (nested n es' B)) := by
  induction n generalizing es es' A B f g with
  | zero =>
    simp only [List.length_eq_zero_iff] at hna hnb
    subst hna; subst hnb
    exact Counts.cmpElem lt (hf [] trivial) (hg [] trivial)
  | succ n ih =>
    match es, es', hna, hnb with
    | e :: es, e' :: es', hna, hnb =>
      simp only [nested, Spec.nestedLess, costVal, lexVal, List.range_eq_range']
      refine Counts.lexRun _ _ _ _ _ _ _ e e' _ _ _ _ 0 rfl rfl rfl rfl ?_
      intro k h1 h2
      have hf' : ∀ ks, InShape es ks → s.get? (A (k :: ks)) = some (f (k :: ks)) := fun ks hk => hf _ ⟨by omega, hk⟩
      have hg' : ∀ ks, InShape es' ks → s.get? (B (k :: ks)) = some (g (k :: ks)) := fun ks hk => hg _ ⟨by omega, hk⟩
      exact ⟨ih es es' (by simpa using hna) (by simpa using hnb) _ _ _ _ hf' hg', ih es' es (by simpa using hnb) (by simpa using hna) _ _ _ _ hg' hf'⟩

/-! ### Bounds -/

theorem costList_le {α : Type} (l : α → α → Bool) (c : α → α → Nat) (B : Nat) (m m' j : Nat) (F G : Nat → α)
    (hc : ∀ k, c (F k) (G k) ≤ B ∧ c (G k) (F k) ≤ B) :
    costList l c ((List.range' j m).map F) ((List.range' j m').map G) ≤ min m m' * (2 * B) := by
  induction m generalizing m' j with
  | zero => simp [costList]
  | succ m ih =>
    cases m' with
    | zero => simp [costList]
    | succ m' =>
      simp only [List.range'_succ, List.map_cons, costList]
      have h1 := hc j
      have h2 := ih m' (j + 1)
      rw [show min (m + 1) (m' + 1) = min m m' + 1 by omega, Nat.succ_mul]
      split <;> [omega; split <;> omega]

theorem costVal_le (lt : T → T → Bool) (n : Nat) (es es' : List Nat) (hna : es.length = n) (hnb : es'.length = n) (f g : List Nat → T) :
    costVal lt n (nested n es f) (nested n es' g) ≤ 2 ^ n * (List.zipWith min es es').prod := by
  induction n generalizing es es' f g with
  | zero =>
    simp only [List.length_eq_zero_iff] at hna hnb
    subst hna; subst hnb
    simp [costVal]
  | succ n ih =>
    match es, es', hna, hnb with
    | e :: es, e' :: es', hna, hnb =>
      simp only [nested, costVal, List.range_eq_range', List.zipWith_cons_cons, List.prod_cons]
      refine (costList_le _ _ (2 ^ n * (List.zipWith min es es').prod) e e' 0 _ _ ?_).trans (le_of_eq ?_)
      · intro k
        refine ⟨ih es es' (by simpa using hna) (by simpa using hnb) _ _, ?_⟩
        rw [List.zipWith_comm_of_comm (f := min) (fun x y => Nat.min_comm x y)]
        exact ih es' es (by simpa using hnb) (by simpa using hna) _ _
      · rw [Nat.pow_succ]; ring

theorem costList_equiv {α : Type} (l : α → α → Bool) (c : α → α → Nat) (B : Nat) (m j : Nat) (F G : Nat → α)
    (hc : ∀ k, k < j + m → c (F k) (G k) = B ∧ c (G k) (F k) = B ∧ l (F k) (G k) = false ∧ l (G k) (F k) = false) :
    costList l c ((List.range' j m).map F) ((List.range' j m).map G) = m * (2 * B) ∧
      lexList l ((List.range' j m).map F) ((List.range' j m).map G) = false := by
  induction m generalizing j with
  | zero => simp [costList, lexList]
  | succ m ih =>
    simp only [List.range'_succ, List.map_cons, costList, lexList]
    obtain ⟨h1, h2, h3, h4⟩ := hc j (by omega)
    obtain ⟨h5, h6⟩ := ih (j + 1) (fun k hk => hc k (by omega))
    rw [h1, h2, h3, h4, h5, h6]
    simp only [Bool.false_eq_true, if_false, Nat.succ_mul, and_true]
    omega

theorem costVal_equiv (lt : T → T → Bool) (n : Nat) (es : List Nat) (hn : es.length = n) (f g : List Nat → T)
    (h : ∀ k, InShape es k → lt (f k) (g k) = false ∧ lt (g k) (f k) = false) :
    costVal lt n (nested n es f) (nested n es g) = 2 ^ n * es.prod ∧ lexVal lt n (nested n es f) (nested n es g) = false := by
  induction n generalizing es f g with
  | zero =>
    simp only [List.length_eq_zero_iff] at hn
    subst hn
    exact ⟨by simp [costVal], (h [] trivial).1⟩
  | succ n ih =>
    match es, hn with
    | e :: es, hn =>
      simp only [nested, costVal, lexVal, List.range_eq_range', List.prod_cons]
      have := costList_equiv (lexVal lt n) (costVal lt n) (2 ^ n * es.prod) e 0
        (fun x => nested n es (fun k => f (x :: k))) (fun x => nested n es (fun k => g (x :: k))) (by
          intro k hk
          have h' : ∀ ks, InShape es ks → lt (f (k :: ks)) (g (k :: ks)) = false ∧ lt (g (k :: ks)) (f (k :: ks)) = false :=
            fun ks hks => h (k :: ks) ⟨by omega, hks⟩
          obtain ⟨a1, a2⟩ := ih es (by simpa using hn) _ _ h'
          obtain ⟨b1, b2⟩ := ih es (by simpa using hn) _ _ (fun ks hks => (h' ks hks).symm)
          exact ⟨a1, b1, a2, b2⟩)
      refine ⟨?_, this.2⟩
      rw [this.1, Nat.pow_succ]; ring

end MultiArray
