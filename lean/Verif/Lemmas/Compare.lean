import Verif.Lemmas.HandleMem

/- Comparison operators compute on the values of the arrays. -/
set_option autoImplicit false

namespace MultiArray
open Spec
variable {T : Type}

theorem Spec.Contents.sub {s : St T} {p : Ptr} {e : Nat} {es : List Nat} {t : Int} {ss : List Int} {b : Int} {bs : List Int}
    {f : List Nat → T} (h : Contents s ⟨p, e :: es, t :: ss, b :: bs⟩ f) (k : Nat) (hk : k < e) :
    Contents s (subAt p es t ss b bs k) (fun ks => f (k :: ks)) := by
  intro ks hks
  rw [← h (k :: ks) ⟨hk, hks⟩]
  simp [elemAt, address, subAt, atPos, dot, Ptr.add_add]

theorem stdEqual_spec (eqv : It → It → Res Bool) (D D' : Desc) (b b' : Int) (F : Nat → Bool) (m j : Nat)
    (h : ∀ k, j ≤ k → k < j + m → eqv ⟨b + (k : Int), D⟩ ⟨b' + (k : Int), D'⟩ = .ok (F k)) :
    stdEqual eqv m ⟨b + (j : Int), D⟩ ⟨b' + (j : Int), D'⟩ = .ok ((List.range' j m).all F) := by
  induction m generalizing j with
  | zero => simp [stdEqual]
  | succ m ih =>
    have := ih (j + 1) (fun k h1 h2 => h k (by omega) (by omega))
    simp only [stdEqual, It.increment]
    rw [h j (by omega) (by omega), Res.bind_ok, List.range'_succ, List.all_cons,
      show b + (j : Int) + 1 = b + ((j + 1 : Nat) : Int) by push_cast; ring,
      show b' + (j : Int) + 1 = b' + ((j + 1 : Nat) : Int) by push_cast; ring, this]
    cases F j <;> simp

theorem equalRef_spec (dbg : Bool) (eq : T → T → Bool) (s : St T) (n : Nat) (a b : Desc) (ha : WellShaped a)
    (hb : WellShaped b) (hna : a.extents.length = n) (hnb : b.extents.length = n) (f g : List Nat → T)
    (hf : Contents s a f) (hg : Contents s b g) :
    equalRef dbg eq s n a b =
      .ok (decide (a.extents = b.extents) && (allPos a.extents).all (fun k => eq (f k) (g k))) := by
  induction n generalizing a b f g with
  | zero =>
    obtain ⟨p, es, ss, bs⟩ := a
    obtain ⟨p', es', ss', bs'⟩ := b
    simp only [List.length_eq_zero_iff] at hna hnb
    subst hna; subst hnb
    match ss, bs, ss', bs', ha, hb with
    | [], [], [], [], _, _ =>
      have h1 := hf [] trivial
      have h2 := hg [] trivial
      simp only [elemAt, atPos, address, dot, Ptr.add_zero, List.zipWith_nil_left] at h1 h2
      simp [equalRef, loadR, h1, h2, allPos]
  | succ n ih =>
    unfold equalRef
    by_cases he : a.extents = b.extents
    · rw [if_pos he]
      obtain ⟨p, es, ss, bs⟩ := a
      obtain ⟨p', es', ss', bs'⟩ := b
      simp only at he
      subst he
      match es, ss, bs, ss', bs', ha, hb, hna with
      | e :: es, t :: ss, b :: bs, t' :: ss', b' :: bs', ha, hb, hna =>
        simp only [begin_cons, end_cons, Res.bind_ok]
        rw [show (It.sub ⟨b + (e : Int), (⟨p, e :: es, t :: ss, b :: bs⟩ : Desc)⟩ ⟨b, ⟨p, e :: es, t :: ss, b :: bs⟩⟩).toNat = e
          by simp [It.sub, It.distanceTo]]
        have := stdEqual_spec (fun i j => do equalRef dbg eq s n (← i.deref dbg) (← j.deref dbg))
          ⟨p, e :: es, t :: ss, b :: bs⟩ ⟨p', e :: es, t' :: ss', b' :: bs'⟩ b b'
          (fun k => (allPos es).all (fun ks => eq (f (k :: ks)) (g (k :: ks)))) e 0 (by
            intro k _ hk
            rw [It.deref_in dbg p e es t ss b bs k (by omega), It.deref_in dbg p' e es t' ss' b' bs' k (by omega)]
            simp only [Res.bind_ok]
            rw [ih (subAt p es t ss b bs k) (subAt p' es t' ss' b' bs' k) (wellShaped_subAt ha k) (wellShaped_subAt hb k)
              (by simpa [subAt] using hna) (by simpa [subAt] using hna) _ _ (hf.sub k (by omega)) (hg.sub k (by omega))]
            simp [subAt])
        simp only [Nat.cast_zero, add_zero] at this
        rw [this]
        simp [allPos, List.all_flatMap, List.all_map, List.range_eq_range', Function.comp_def]
    · rw [if_neg he]
      simp [he]

/-! ### Lexicographic order -/

/-- The algorithm of `std::lexicographical_compare`. -/
def lexList {α : Type} (lt : α → α → Bool) : List α → List α → Bool
  | _, [] => false
  | [], _ :: _ => true
  | x :: xs, y :: ys => if lt x y then true else if lt y x then false else lexList lt xs ys

/-- Recursive version on array values. -/
def lexVal (lt : T → T → Bool) : (n : Nat) → Val T n → Val T n → Bool
  | 0, x, y => lt x y
  | n + 1, xs, ys => lexList (lexVal lt n) xs ys

theorem lexList_iff {α : Type} (lt : α → α → Bool) (R : α → α → Prop) (hR : ∀ x y, lt x y = true ↔ R x y) (xs ys : List α) :
    lexList lt xs ys = true ↔ LexLess R xs ys := by
  induction xs generalizing ys with
  | nil =>
    cases ys with
    | nil =>
      simp only [lexList, Bool.false_eq_true, false_iff]
      rintro ⟨p, _, h1, _, h | ⟨x, y, h2, _⟩⟩
      · simp at h
      · simp at h2
    | cons y ys =>
      simp only [lexList, true_iff]
      exact ⟨0, by simp, by simp, by simp, .inl (by simp)⟩
  | cons x xs ih =>
    cases ys with
    | nil =>
      simp only [lexList, Bool.false_eq_true, false_iff]
      rintro ⟨p, _, _, h2, h | ⟨x, y, _, h3, _⟩⟩
      · simp at h
      · simp at h3
    | cons y ys =>
      unfold lexList
      by_cases h1 : lt x y = true
      · rw [if_pos h1]
        simp only [true_iff]
        exact ⟨0, by simp, by simp, by simp, .inr ⟨x, y, rfl, rfl, (hR x y).mp h1⟩⟩
      · rw [if_neg h1]
        by_cases h2 : lt y x = true
        · rw [if_pos h2]
          simp only [Bool.false_eq_true, false_iff]
          rintro ⟨p, hp, hl1, hl2, h⟩
          cases p with
          | zero =>
            rcases h with ⟨h, _⟩ | ⟨x', y', hx, hy, hxy⟩
            · simp at h
            · simp only [List.getElem?_cons_zero, Option.some.injEq] at hx hy
              subst hx; subst hy
              exact h1 ((hR _ _).mpr hxy)
          | succ p => exact (hp 0 x y (by omega) rfl rfl).2 ((hR _ _).mp h2)
        · rw [if_neg h2, ih]
          constructor
          · rintro ⟨p, hp, hl1, hl2, h⟩
            refine ⟨p + 1, ?_, by simpa using hl1, by simpa using hl2, ?_⟩
            · intro i x' y' hi hx hy
              cases i with
              | zero =>
                simp only [List.getElem?_cons_zero, Option.some.injEq] at hx hy
                subst hx; subst hy
                exact ⟨fun h => h1 ((hR _ _).mpr h), fun h => h2 ((hR _ _).mpr h)⟩
              | succ i => exact hp i x' y' (by omega) (by simpa using hx) (by simpa using hy)
            · rcases h with ⟨h, h'⟩ | ⟨x', y', hx, hy, hxy⟩
              · exact .inl (by simp; omega)
              · exact .inr ⟨x', y', by simpa using hx, by simpa using hy, hxy⟩
          · rintro ⟨p, hp, hl1, hl2, h⟩
            cases p with
            | zero =>
              rcases h with ⟨h, _⟩ | ⟨x', y', hx, hy, hxy⟩
              · simp at h
              · simp only [List.getElem?_cons_zero, Option.some.injEq] at hx hy
                subst hx; subst hy
                exact absurd ((hR _ _).mpr hxy) h1
            | succ p =>
              refine ⟨p, ?_, by simpa using hl1, by simpa using hl2, ?_⟩
              · intro i x' y' hi hx hy
                exact hp (i + 1) x' y' (by omega) (by simpa using hx) (by simpa using hy)
              · rcases h with ⟨h, h'⟩ | ⟨x', y', hx, hy, hxy⟩
                · simp at h h'; exact .inl ⟨h, h'⟩
                · exact .inr ⟨x', y', by simpa using hx, by simpa using hy, hxy⟩

theorem lexVal_iff (lt : T → T → Bool) (n : Nat) (x y : Val T n) : lexVal lt n x y = true ↔ ValLess lt n x y := by
  induction n with
  | zero => rfl
  | succ n ih => exact lexList_iff (lexVal lt n) (ValLess lt n) ih x y

/-- Asymmetric and negatively transitive. -/
structure SWO {α : Type} (lt : α → α → Bool) : Prop where
  asymm : ∀ x y, lt x y = true → lt y x = false
  neg : ∀ x y z, lt x y = false → lt y z = false → lt x z = false

theorem SWO.ofStrictWeak {α : Type} {lt : α → α → Bool} (h : StrictWeak lt) : SWO lt := by
  have asymm : ∀ x y, lt x y = true → lt y x = false := by
    intro x y hxy
    cases hyx : lt y x with
    | false => rfl
    | true => rw [← h.irrefl x, h.trans x y x hxy hyx]
  refine ⟨asymm, ?_⟩
  intro x y z hxy hyz
  cases hxz : lt x z with
  | false => rfl
  | true =>
    cases hyx : lt y x with
    | true => rw [← hyz, h.trans y x z hyx hxz]
    | false =>
      cases hzy : lt z y with
      | true =>
        have := h.trans x z y hxz hzy
        rw [hxy] at this; cases this
      | false =>
        have := (h.equivTrans x y z hxy hyx hyz hzy).1
        rw [hxz] at this; cases this

theorem SWO.strictWeak {α : Type} {lt : α → α → Bool} (h : SWO lt) : StrictWeak lt := by
  have irr : ∀ x, lt x x = false := by
    intro x
    cases hx : lt x x with
    | false => rfl
    | true => exact (hx.symm.trans (h.asymm x x hx))
  refine ⟨irr, ?_, ?_⟩
  · intro x y z hxy hyz
    cases hxz : lt x z with
    | true => rfl
    | false =>
      have := h.neg x z y hxz (h.asymm y z hyz)
      rw [hxy] at this; exact this.symm
  · intro x y z h1 h2 h3 h4
    exact ⟨h.neg x y z h1 h3, h.neg z y x h4 h2⟩

theorem SWO.lexList {α : Type} {lt : α → α → Bool} (h : SWO lt) : SWO (lexList lt) := by
  constructor
  · intro x
    induction x with
    | nil => intro y hy; cases y <;> simp [MultiArray.lexList] at hy ⊢
    | cons a x ih =>
      intro y hy
      cases y with
      | nil => simp [MultiArray.lexList] at hy
      | cons b y =>
        unfold MultiArray.lexList at hy ⊢
        cases hab : lt a b with
        | true => simp [h.asymm a b hab]
        | false =>
          cases hba : lt b a with
          | true => simp [hab, hba] at hy
          | false =>
            simp only [hab, hba, Bool.false_eq_true, if_false] at hy ⊢
            exact ih y hy
  · intro x
    induction x with
    | nil =>
      intro y z hxy hyz
      cases y with
      | nil => exact hyz
      | cons b y => simp [MultiArray.lexList] at hxy
    | cons a x ih =>
      intro y z hxy hyz
      cases z with
      | nil => simp [MultiArray.lexList]
      | cons c z =>
        cases y with
        | nil => simp [MultiArray.lexList] at hyz
        | cons b y =>
          unfold MultiArray.lexList at hxy hyz ⊢
          have nab : lt a b = false := by
            cases hab : lt a b with
            | false => rfl
            | true => simp [hab] at hxy
          have nbc : lt b c = false := by
            cases hbc : lt b c with
            | false => rfl
            | true => simp [hbc] at hyz
          have nac := h.neg a b c nab nbc
          cases hca : lt c a with
          | true => simp [nac]
          | false =>
            have nba := h.neg b c a nbc hca
            have ncb := h.neg c a b hca nab
            simp only [nab, nba, nbc, ncb, nac, Bool.false_eq_true, if_false] at hxy hyz ⊢
            exact ih y z hxy hyz

theorem SWO.lexVal {lt : T → T → Bool} (h : SWO lt) (n : Nat) : SWO (lexVal lt n) := by
  induction n with
  | zero => exact h
  | succ n ih => exact ih.lexList

/-- For a total element order, incomparable values are equal. -/
theorem lexVal_total {lt : T → T → Bool} (htot : ∀ x y, lt x y = false → lt y x = false → x = y) (n : Nat) (x y : Val T n)
    (h1 : lexVal lt n x y = false) (h2 : lexVal lt n y x = false) : x = y := by
  induction n with
  | zero => exact htot x y h1 h2
  | succ n ih =>
    have aux : ∀ (xs ys : List (Val T n)), lexList (lexVal lt n) xs ys = false → lexList (lexVal lt n) ys xs = false → xs = ys := by
      intro xs
      induction xs with
      | nil => intro ys a b; cases ys with
        | nil => rfl
        | cons y ys => simp [lexList] at a
      | cons x xs ihx => intro ys a b; cases ys with
        | nil => simp [lexList] at b
        | cons y ys =>
          unfold lexList at a b
          have hxy : lexVal lt n x y = false := by
            cases h : lexVal lt n x y with
            | false => rfl
            | true => simp [h] at a
          have hyx : lexVal lt n y x = false := by
            cases h : lexVal lt n y x with
            | false => rfl
            | true => simp [h] at b
          simp only [hxy, hyx, Bool.false_eq_true, if_false] at a b
          rw [ih x y hxy hyx, ihx ys a b]
    exact aux x y h1 h2

theorem stdLex_spec {α : Type} (ltR : It → It → Res Bool) (lt : α → α → Bool) (D D' : Desc) (b b' : Int) (F G : Nat → α)
    (m m' j : Nat)
    (h : ∀ k, j ≤ k → k < j + m → k < j + m' → ltR ⟨b + (k : Int), D⟩ ⟨b' + (k : Int), D'⟩ = .ok (lt (F k) (G k)) ∧
      ltR ⟨b' + (k : Int), D'⟩ ⟨b + (k : Int), D⟩ = .ok (lt (G k) (F k))) :
    stdLexCompare ltR m m' ⟨b + (j : Int), D⟩ ⟨b' + (j : Int), D'⟩ =
      .ok (lexList lt ((List.range' j m).map F) ((List.range' j m').map G)) := by
  induction m generalizing m' j with
  | zero =>
    cases m' with
    | zero => simp [stdLexCompare, lexList]
    | succ m' => simp [stdLexCompare, lexList, List.range'_succ]
  | succ m ih =>
    cases m' with
    | zero => simp [stdLexCompare, lexList]
    | succ m' =>
      obtain ⟨h1, h2⟩ := h j (by omega) (by omega) (by omega)
      have := ih m' (j + 1) (fun k k1 k2 k3 => h k (by omega) (by omega) (by omega))
      simp only [stdLexCompare, It.increment]
      rw [h1, h2, Res.bind_ok, Res.bind_ok,
        show b + (j : Int) + 1 = b + ((j + 1 : Nat) : Int) by push_cast; ring,
        show b' + (j : Int) + 1 = b' + ((j + 1 : Nat) : Int) by push_cast; ring, this]
      simp only [List.range'_succ, List.map_cons, lexList]
      cases lt (F j) (G j) <;> cases lt (G j) (F j) <;> simp

theorem lessRef_spec (dbg : Bool) (lt : T → T → Bool) (s : St T) (n : Nat) (a b : Desc) (ha : WellShaped a)
    (hb : WellShaped b) (hna : a.extents.length = n) (hnb : b.extents.length = n) (f g : List Nat → T)
    (hf : Contents s a f) (hg : Contents s b g) :
    lessRef dbg lt s n a b = .ok (lexVal lt n (nested n a.extents f) (nested n b.extents g)) := by
  induction n generalizing a b f g with
  | zero =>
    obtain ⟨p, es, ss, bs⟩ := a
    obtain ⟨p', es', ss', bs'⟩ := b
    simp only [List.length_eq_zero_iff] at hna hnb
    subst hna; subst hnb
    match ss, bs, ss', bs', ha, hb with
    | [], [], [], [], _, _ =>
      have h1 := hf [] trivial
      have h2 := hg [] trivial
      simp only [elemAt, atPos, address, dot, Ptr.add_zero, List.zipWith_nil_left] at h1 h2
      simp [lessRef, loadR, h1, h2, nested, lexVal]
  | succ n ih =>
    unfold lessRef
    obtain ⟨p, es, ss, bs⟩ := a
    obtain ⟨p', es', ss', bs'⟩ := b
    match es, ss, bs, es', ss', bs', ha, hb, hna, hnb with
    | e :: es, t :: ss, b :: bs, e' :: es', t' :: ss', b' :: bs', ha, hb, hna, hnb =>
      simp only [begin_cons, end_cons, Res.bind_ok]
      rw [show (It.sub ⟨b + (e : Int), (⟨p, e :: es, t :: ss, b :: bs⟩ : Desc)⟩ ⟨b, ⟨p, e :: es, t :: ss, b :: bs⟩⟩).toNat = e
        by simp [It.sub, It.distanceTo],
        show (It.sub ⟨b' + (e' : Int), (⟨p', e' :: es', t' :: ss', b' :: bs'⟩ : Desc)⟩
          ⟨b', ⟨p', e' :: es', t' :: ss', b' :: bs'⟩⟩).toNat = e'
        by simp [It.sub, It.distanceTo]]
      have := stdLex_spec (fun i j => do lessRef dbg lt s n (← i.deref dbg) (← j.deref dbg)) (lexVal lt n)
        ⟨p, e :: es, t :: ss, b :: bs⟩ ⟨p', e' :: es', t' :: ss', b' :: bs'⟩ b b'
        (fun x => nested n es (fun k => f (x :: k))) (fun x => nested n es' (fun k => g (x :: k))) e e' 0 (by
          intro k _ hk hk'
          rw [It.deref_in dbg p e es t ss b bs k (by omega), It.deref_in dbg p' e' es' t' ss' b' bs' k (by omega)]
          simp only [Res.bind_ok]
          rw [ih (subAt p es t ss b bs k) (subAt p' es' t' ss' b' bs' k) (wellShaped_subAt ha k) (wellShaped_subAt hb k)
              (by simpa [subAt] using hna) (by simpa [subAt] using hnb) _ _ (hf.sub k (by omega)) (hg.sub k (by omega)),
            ih (subAt p' es' t' ss' b' bs' k) (subAt p es t ss b bs k) (wellShaped_subAt hb k) (wellShaped_subAt ha k)
              (by simpa [subAt] using hnb) (by simpa [subAt] using hna) _ _ (hg.sub k (by omega)) (hf.sub k (by omega))]
          simp [subAt])
      simp only [Nat.cast_zero, add_zero] at this
      rw [this]
      simp [nested, lexVal, List.range_eq_range']

/-- Values determine contents and (when no extent is zero) the shape. -/
theorem nested_inj (n : Nat) (es es' : List Nat) (f g : List Nat → T) (h1 : es.length = n) (h2 : es'.length = n)
    (h : nested n es f = nested n es' g) :
    (0 ∉ es → es = es') ∧ (es = es' → ∀ k, InShape es k → f k = g k) := by
  induction n generalizing es es' f g with
  | zero =>
    simp only [List.length_eq_zero_iff] at h1 h2
    subst h1; subst h2
    refine ⟨fun _ => rfl, fun _ k hk => ?_⟩
    cases k with
    | nil => exact h
    | cons => exact absurd hk id
  | succ n ih =>
    match es, es', h1, h2 with
    | e :: es, e' :: es', h1, h2 =>
      simp only [nested] at h
      have hlen : e = e' := by
        have := congrArg List.length h
        simpa using this
      subst hlen
      have hk : ∀ x, x < e → nested n es (fun k => f (x :: k)) = nested n es' (fun k => g (x :: k)) := by
        intro x hx
        have := List.map_inj_left.mp (show (List.range e).map (fun x => nested n es (fun k => f (x :: k))) =
          (List.range e).map (fun x => nested n es' (fun k => g (x :: k))) from h) x (by simpa using hx)
        exact this
      refine ⟨fun h0 => ?_, fun heq k hin => ?_⟩
      · have he : 0 < e := by
          rcases Nat.eq_zero_or_pos e with h | h
          · exact absurd (by simp [h]) h0
          · exact h
        have := (ih es es' _ _ (by simpa using h1) (by simpa using h2) (hk 0 he)).1 (fun h => h0 (by simp [h]))
        rw [this]
      · match k, hin with
        | x :: k, hin =>
          have heq' : es = es' := by simpa using heq
          exact (ih es es' _ _ (by simpa using h1) (by simpa using h2) (hk x hin.1)).2 heq' k hin.2

theorem nested_congr (n : Nat) (es : List Nat) (f g : List Nat → T) (h1 : es.length = n)
    (h : ∀ k, InShape es k → f k = g k) : nested n es f = nested n es g := by
  induction n generalizing es f g with
  | zero =>
    simp only [List.length_eq_zero_iff] at h1
    subst h1
    exact h [] trivial
  | succ n ih =>
    match es, h1 with
    | e :: es, h1 =>
      simp only [nested]
      apply List.map_congr_left
      intro x hx
      exact ih es _ _ (by simpa using h1) (fun k hk => h (x :: k) ⟨by simpa using hx, hk⟩)

end MultiArray
