import Verif.SpecParam
import Verif.Props.Share
import Mathlib.Data.List.Forall2

/- Property theorems C93: programs do not depend on the element type. -/
set_option autoImplicit false

namespace MultiArray.Props
open MultiArray MultiArray.Spec
variable {T U : Type}

/-- The same variables, and corresponding values in the same storages. -/
structure StCorr (R : T → U → Prop) (A : SState T) (B : SState U) : Prop where
  vars : B.vars = A.vars
  count : B.count = A.count
  stores : ∀ i, Option.Rel (List.Forall₂ R) (A.stores i) (B.stores i)

variable {R : T → U → Prop} {A : SState T} {B : SState U}

theorem forall₂_set {xs : List T} {ys : List U} (h : List.Forall₂ R xs ys) (i : Nat) {v : T} {u : U} (hv : R v u) : List.Forall₂ R (xs.set i v) (ys.set i u) := by
  induction h generalizing i with
  | nil => simp
  | cons hx _ ih =>
    cases i with
    | zero => exact .cons hv (by assumption)
    | succ i => exact .cons hx (ih i)

theorem forall₂_getElem? {xs : List T} {ys : List U} (h : List.Forall₂ R xs ys) (i : Nat) : Option.Rel R xs[i]? ys[i]? := by
  induction h generalizing i with
  | nil => simp
  | cons hx _ ih =>
    cases i with
    | zero => exact .some hx
    | succ i => simpa using ih i

theorem forall₂_replicate (n : Nat) {v : T} {u : U} (h : R v u) : List.Forall₂ R (List.replicate n v) (List.replicate n u) := by
  induction n with
  | zero => exact .nil
  | succ n ih => exact .cons h ih

theorem forall₂_map_same {β : Type} {f : β → T} {g : β → U} (l : List β) (h : ∀ x, R (f x) (g x)) : List.Forall₂ R (l.map f) (l.map g) := by
  induction l with
  | nil => exact .nil
  | cons x l ih => exact .cons (h x) ih

theorem rel_getD {o : Option T} {o' : Option U} (h : Option.Rel R o o') {v : T} {u : U} (hv : R v u) : R (o.getD v) (o'.getD u) := by
  cases h with
  | none => exact hv
  | some h => exact h

theorem rel_mapM {β : Type} {f : β → Option T} {g : β → Option U} (h : ∀ x, Option.Rel R (f x) (g x)) (l : List β) : Option.Rel (List.Forall₂ R) (l.mapM f) (l.mapM g) := by
  induction l with
  | nil => exact .some .nil
  | cons x l ih =>
    simp only [List.mapM_cons]
    cases hf : f x with
    | none =>
      have := h x; rw [hf] at this
      cases hg : g x with
      | none => exact .none
      | some u => rw [hg] at this; cases this
    | some v =>
      have := h x; rw [hf] at this
      cases hg : g x with
      | none => rw [hg] at this; cases this
      | some u =>
        rw [hg] at this
        cases this with
        | some hv =>
          cases hl : l.mapM f with
          | none =>
            rw [hl] at ih
            cases hl' : l.mapM g with
            | none => exact .none
            | some us => rw [hl'] at ih; cases ih
          | some vs =>
            rw [hl] at ih
            cases hl' : l.mapM g with
            | none => rw [hl'] at ih; cases ih
            | some us =>
              rw [hl'] at ih
              cases ih with
              | some h => exact .some (.cons hv h)

theorem StCorr.part (h : StCorr R A B) (x : Nat) (ss : List Sel) : B.part x ss = A.part x ss := by simp [SState.part, h.vars]

theorem StCorr.get (h : StCorr R A B) (p : SPart) (idx : List Int) : Option.Rel R (A.get p idx) (B.get p idx) := by
  unfold SState.get
  have := h.stores p.store
  cases ha : A.stores p.store with
  | none => rw [ha] at this; cases hb : B.stores p.store with
    | none => exact .none
    | some us => rw [hb] at this; cases this
  | some vs =>
    rw [ha] at this
    cases hb : B.stores p.store with
    | none => rw [hb] at this; cases this
    | some us =>
      rw [hb] at this
      cases this with
      | some hh => exact forall₂_getElem? hh _

theorem StCorr.setVar (h : StCorr R A B) (x : Nat) (v : Option SVar) : StCorr R (A.setVar x v) (B.setVar x v) :=
  ⟨by simp [SState.setVar, h.vars], h.count, h.stores⟩

theorem StCorr.setStore (h : StCorr R A B) (i : Nat) {vs : Option (List T)} {us : Option (List U)} (hv : Option.Rel (List.Forall₂ R) vs us) :
    StCorr R (A.setStore i vs) (B.setStore i us) := by
  refine ⟨h.vars, h.count, fun j => ?_⟩
  simp only [SState.setStore]
  split
  · exact hv
  · exact h.stores j

theorem StCorr.addStore (h : StCorr R A B) {vs : List T} {us : List U} (hv : List.Forall₂ R vs us) : StCorr R (A.addStore vs) (B.addStore us) := by
  refine ⟨h.vars, by simp [SState.addStore, h.count], fun j => ?_⟩
  simp only [SState.addStore, h.count]
  split
  · exact .some hv
  · exact h.stores j

theorem StCorr.store (h : StCorr R A B) {i : Nat} {vs : List T} (hv : A.stores i = some vs) : ∃ us, B.stores i = some us ∧ List.Forall₂ R vs us := by
  have := h.stores i
  rw [hv] at this
  cases hb : B.stores i with
  | none => rw [hb] at this; cases this
  | some us => rw [hb] at this; cases this with | some hh => exact ⟨us, rfl, hh⟩

theorem StCorr.store_none (h : StCorr R A B) (i : Nat) : B.stores i = none ↔ A.stores i = none := by
  have := h.stores i
  cases ha : A.stores i with
  | none => rw [ha] at this; cases hb : B.stores i with
    | none => simp
    | some us => rw [hb] at this; cases this
  | some vs => rw [ha] at this; cases hb : B.stores i with
    | none => rw [hb] at this; cases this
    | some us => simp

theorem StCorr.get_some (h : StCorr R A B) {p : SPart} {idx : List Int} {v : T} (hv : A.get p idx = some v) : ∃ u, B.get p idx = some u ∧ R v u := by
  have := h.get p idx
  rw [hv] at this
  cases hb : B.get p idx with
  | none => rw [hb] at this; cases this
  | some u => rw [hb] at this; cases this with | some hh => exact ⟨u, rfl, hh⟩

theorem StCorr.put (h : StCorr R A B) {p : SPart} {idx : List Int} {v : T} {u : U} (hv : R v u) {A' : SState T} (hA : A.put p idx v = some A') :
    ∃ B', B.put p idx u = some B' ∧ StCorr R A' B' := by
  unfold SState.put at hA ⊢
  cases ha : A.stores p.store with
  | none => rw [ha] at hA; cases hA
  | some vs =>
    rw [ha] at hA; cases hA
    obtain ⟨us, hb, hh⟩ := h.store ha
    exact ⟨_, by rw [hb]; rfl, h.setStore _ (.some (forall₂_set hh _ hv))⟩

theorem StCorr.copy {p q : SPart} (ks : List (List Nat)) : ∀ {A A' : SState T} {B : SState U}, StCorr R A B → SState.copy p q ks A = some A' →
    ∃ B', SState.copy p q ks B = some B' ∧ StCorr R A' B' := by
  induction ks with
  | nil => intro A A' B h hA; cases hA; exact ⟨B, rfl, h⟩
  | cons k ks ih =>
    intro A A' B h hA
    simp only [SState.copy, Option.bind_eq_some_iff] at hA
    obtain ⟨v, hv, A1, hp, hA⟩ := hA
    obtain ⟨u, hu, hR⟩ := h.get_some hv
    obtain ⟨B1, hp', h1⟩ := h.put hR hp
    obtain ⟨B', e, h'⟩ := ih h1 hA
    exact ⟨B', by simp only [SState.copy, hu, Option.bind_some, hp', e], h'⟩

theorem StCorr.map {p : SPart} {f : T → T} {g : U → U} (hf : ∀ v u, R v u → R (f v) (g u)) (ks : List (List Nat)) : ∀ {A A' : SState T} {B : SState U}, StCorr R A B →
    SState.map p f ks A = some A' → ∃ B', SState.map p g ks B = some B' ∧ StCorr R A' B' := by
  induction ks with
  | nil => intro A A' B h hA; cases hA; exact ⟨B, rfl, h⟩
  | cons k ks ih =>
    intro A A' B h hA
    simp only [SState.map, Option.bind_eq_some_iff] at hA
    obtain ⟨v, hv, A1, hp, hA⟩ := hA
    obtain ⟨u, hu, hR⟩ := h.get_some hv
    obtain ⟨B1, hp', h1⟩ := h.put (hf _ _ hR) hp
    obtain ⟨B', e, h'⟩ := ih h1 hA
    exact ⟨B', by simp only [SState.map, hu, Option.bind_some, hp', e], h'⟩

/-! ### Comparisons -/

theorem StCorr.sameElems (h : StCorr R A B) {eq : T → T → Bool} {eq' : U → U → Bool} (he : ∀ v u v' u', R v u → R v' u' → eq v v' = eq' u u') (p q : SPart) :
    B.sameElems eq' p q = A.sameElems eq p q := by
  unfold SState.sameElems
  congr 1
  funext k
  have h1 := h.get p (atPos p.bases k)
  have h2 := h.get q (atPos q.bases k)
  revert h1 h2
  generalize A.get p (atPos p.bases k) = a
  generalize B.get p (atPos p.bases k) = b
  generalize A.get q (atPos q.bases k) = a'
  generalize B.get q (atPos q.bases k) = b'
  intro h1 h2
  cases h1 with
  | none => cases h2 <;> rfl
  | some x1 => cases h2 with
    | none => rfl
    | some x2 => exact (he _ _ _ _ x1 x2).symm

/-- Corresponding nested values. -/
def ValCorr (R : T → U → Prop) : (n : Nat) → Val T n → Val U n → Prop
  | 0, v, u => R v u
  | n + 1, vs, us => List.Forall₂ (ValCorr R n) vs us

theorem lexLess_congr {α β : Type} {S : α → β → Prop} {P : α → α → Prop} {Q : β → β → Prop} (h : ∀ v u v' u', S v u → S v' u' → (P v v' ↔ Q u u'))
    {xs ys : List α} {xs' ys' : List β} (hx : List.Forall₂ S xs xs') (hy : List.Forall₂ S ys ys') : LexLess P xs ys ↔ LexLess Q xs' ys' := by
  have g : ∀ {xs : List α} {xs' : List β}, List.Forall₂ S xs xs' → ∀ (i : Nat) (x : α), xs[i]? = some x → ∃ x', xs'[i]? = some x' ∧ S x x' := by
    intro xs xs' hx i x hi
    have := forall₂_getElem? hx i
    rw [hi] at this
    cases hb : xs'[i]? with
    | none => rw [hb] at this; cases this
    | some u => rw [hb] at this; cases this with | some hh => exact ⟨u, rfl, hh⟩
  have g' : ∀ {xs : List α} {xs' : List β}, List.Forall₂ S xs xs' → ∀ (i : Nat) (x' : β), xs'[i]? = some x' → ∃ x, xs[i]? = some x ∧ S x x' := by
    intro xs xs' hx i x hi
    have := forall₂_getElem? hx i
    rw [hi] at this
    cases hb : xs[i]? with
    | none => rw [hb] at this; cases this
    | some u => rw [hb] at this; cases this with | some hh => exact ⟨u, rfl, hh⟩
  have lx := hx.length_eq
  have ly := hy.length_eq
  unfold LexLess
  constructor
  · rintro ⟨p, h1, h2, h3, h4⟩
    refine ⟨p, ?_, by omega, by omega, ?_⟩
    · intro i x' y' hi hx' hy'
      obtain ⟨x, ex, sx⟩ := g' hx i x' hx'
      obtain ⟨y, ey, sy⟩ := g' hy i y' hy'
      have := h1 i x y hi ex ey
      rw [h _ _ _ _ sx sy, h _ _ _ _ sy sx] at this
      exact this
    · rcases h4 with h4 | ⟨x, y, ex, ey, hp⟩
      · exact .inl (by omega)
      · obtain ⟨x', ex', sx⟩ := g hx p x ex
        obtain ⟨y', ey', sy⟩ := g hy p y ey
        exact .inr ⟨x', y', ex', ey', (h _ _ _ _ sx sy).mp hp⟩
  · rintro ⟨p, h1, h2, h3, h4⟩
    refine ⟨p, ?_, by omega, by omega, ?_⟩
    · intro i x y hi ex ey
      obtain ⟨x', ex', sx⟩ := g hx i x ex
      obtain ⟨y', ey', sy⟩ := g hy i y ey
      have := h1 i x' y' hi ex' ey'
      rw [← h _ _ _ _ sx sy, ← h _ _ _ _ sy sx] at this
      exact this
    · rcases h4 with h4 | ⟨x', y', ex', ey', hp⟩
      · exact .inl (by omega)
      · obtain ⟨x, ex, sx⟩ := g' hx p x' ex'
        obtain ⟨y, ey, sy⟩ := g' hy p y' ey'
        exact .inr ⟨x, y, ex, ey, (h _ _ _ _ sx sy).mpr hp⟩

theorem valLess_congr {lt : T → T → Bool} {lt' : U → U → Bool} (hl : ∀ v u v' u', R v u → R v' u' → lt v v' = lt' u u') :
    ∀ (n : Nat) (a b : Val T n) (a' b' : Val U n), ValCorr R n a a' → ValCorr R n b b' → (ValLess lt n a b ↔ ValLess lt' n a' b') := by
  intro n
  induction n with
  | zero => intro a b a' b' h1 h2; simp only [ValLess]; rw [hl _ _ _ _ h1 h2]
  | succ n ih => intro a b a' b' h1 h2; exact lexLess_congr (fun v u v' u' hv hv' => ih v v' u u' hv hv') h1 h2

theorem nested_corr : ∀ (n : Nat) (es : List Nat) {f : List Nat → T} {g : List Nat → U}, (∀ k, R (f k) (g k)) → ValCorr R n (nested n es f) (nested n es g) := by
  intro n
  induction n with
  | zero => intro es f g h; exact h []
  | succ n ih =>
    intro es f g h
    cases es with
    | nil => exact List.Forall₂.nil
    | cons e es => exact forall₂_map_same (R := ValCorr R n) (List.range e) (fun x => ih es (fun k => h (x :: k)))

/-! ### Steps -/

theorem layout_corr {dflt : T} {dflt' : U} (hd : R dflt dflt') (so : StorageOrder) (es : List Nat) {f : List Nat → Option T} {g : List Nat → Option U}
    (h : ∀ k, Option.Rel R (f k) (g k)) : List.Forall₂ R (layout dflt so es f) (layout dflt' so es g) := by
  refine forall₂_map_same _ (fun p => ?_)
  cases (positions es).find? (fun k => decide (place so es k = p)) with
  | none => exact hd
  | some k => exact rel_getD (h k) hd

theorem resizedVals_corr {dflt : T} {dflt' : U} (hd : R dflt dflt') (bs : List Int) (es0 : List Nat) (so : StorageOrder) {vs : List T} {us : List U} (h : List.Forall₂ R vs us)
    (es : List Nat) : List.Forall₂ R (AbsArr.resizedVals dflt ⟨bs, es0, so, vs⟩ es) (AbsArr.resizedVals dflt' ⟨bs, es0, so, us⟩ es) := by
  refine forall₂_map_same _ (fun p => ?_)
  cases (positions es).find? (fun k => decide (place so es k = p)) with
  | none => exact hd
  | some k =>
    simp only
    split
    · rw [List.getD_eq_getElem?_getD, List.getD_eq_getElem?_getD]; exact rel_getD (forall₂_getElem? h _) hd
    · exact hd

theorem StCorr.Part (h : StCorr R A B) {x : Nat} {ss : List Sel} {p : SPart} (hp : A.Part x ss p) : B.Part x ss p := by
  obtain ⟨v, p0, h1, h2, h3, h4, h5⟩ := hp
  exact ⟨v, p0, by rw [h.vars]; exact h1, h2, fun e => h3 ((h.store_none _).mp e), h4, h5⟩

theorem StCorr.dataOf (h : StCorr R A B) (y : Nat) : B.dataOf y = A.dataOf y := by simp [SState.dataOf, h.vars]

theorem StCorr.hasRoom (h : StCorr R A B) {y first size : Nat} (hr : A.HasRoom y first size) : B.HasRoom y first size := by
  obtain ⟨i, j, vs, h1, h2, h3⟩ := hr
  obtain ⟨us, h4, h5⟩ := h.store h2
  exact ⟨i, j, us, by rw [h.dataOf]; exact h1, h4, by rw [← h5.length_eq]; exact h3⟩

theorem StCorr.initLegal (h : StCorr R A B) {i : CInit} (hi : A.InitLegal i) : B.InitLegal i := by
  cases i with
  | default => trivial
  | extents => exact hi
  | gen => exact hi
  | copy y => simpa [SState.InitLegal, h.vars] using hi
  | convert y ss so al => obtain ⟨p, h1, h2⟩ := hi; exact ⟨p, h.Part h1, h2⟩

theorem StCorr.legal (h : StCorr R A B) {c : SCmd T} {c' : SCmd U} (hc : c.Corr R c') (hl : A.Legal c) : B.Legal c' := by
  cases hc with
  | construct => exact ⟨by rw [h.vars]; exact hl.1, h.initLegal hl.2⟩
  | refTo => exact ⟨by rw [h.vars]; exact hl.1, hl.2.1, hl.2.2.1, h.hasRoom hl.2.2.2⟩
  | refGen => exact ⟨by rw [h.vars]; exact hl.1, hl.2.1, hl.2.2.1, hl.2.2.2.1, h.hasRoom hl.2.2.2.2⟩
  | hold => obtain ⟨h1, p, h2⟩ := hl; exact ⟨by rw [h.vars]; exact h1, p, h.Part h2⟩
  | holdSub => obtain ⟨h1, p, h2⟩ := hl; exact ⟨by rw [h.vars]; exact h1, p, h.Part h2⟩
  | assign => obtain ⟨p, q, h1, h2, h3⟩ := hl; exact ⟨p, q, h.Part h1, h.Part h2, h3⟩
  | copyArray => obtain ⟨p, q, h1, h2, h3⟩ := hl; exact ⟨p, q, h.Part h1, h.Part h2, h3⟩
  | equal => obtain ⟨p, q, h1, h2, h3⟩ := hl; exact ⟨p, q, h.Part h1, h.Part h2, h3⟩
  | less => obtain ⟨p, q, h1, h2, h3⟩ := hl; exact ⟨p, q, h.Part h1, h.Part h2, h3⟩
  | read => obtain ⟨p, h1, h2⟩ := hl; exact ⟨p, h.Part h1, h2⟩
  | write => obtain ⟨p, h1, h2⟩ := hl; exact ⟨p, h.Part h1, h2⟩
  | forEach => obtain ⟨p, h1⟩ := hl; exact ⟨p, h.Part h1⟩
  | traverse => obtain ⟨p, h1⟩ := hl; exact ⟨p, h.Part h1⟩
  | shape => obtain ⟨p, h1⟩ := hl; exact ⟨p, h.Part h1⟩
  | fill =>
    obtain ⟨g, h1, h2⟩ := hl
    exact ⟨g, by rw [h.vars]; exact h1, fun e => h2 ((h.store_none _).mp e)⟩
  | _ => simpa [SState.Legal, h.vars] using hl

theorem StCorr.initValue (h : StCorr R A B) {dflt : T} {dflt' : U} (hd : R dflt dflt') {i : CInit} {a : AbsArr T} (ha : A.initValue dflt i = some a) :
    ∃ b, B.initValue dflt' i = some b ∧ b.bases = a.bases ∧ b.extents = a.extents ∧ b.order = a.order ∧ List.Forall₂ R a.vals b.vals := by
  cases i with
  | default n al => cases ha; exact ⟨_, rfl, rfl, rfl, rfl, forall₂_replicate _ hd⟩
  | extents n es so al => cases ha; exact ⟨_, rfl, rfl, rfl, rfl, forall₂_replicate _ hd⟩
  | gen n rs so al => cases ha; exact ⟨_, rfl, rfl, rfl, rfl, forall₂_replicate _ hd⟩
  | copy y =>
    simp only [SState.initValue, h.vars] at ha ⊢
    split at ha
    · rename_i g hg
      cases hs : A.stores g.store with
      | none => rw [hs] at ha; cases ha
      | some vs =>
        rw [hs] at ha; cases ha
        obtain ⟨us, h1, h2⟩ := h.store hs
        exact ⟨_, by rw [h1]; rfl, rfl, rfl, rfl, h2⟩
    · cases ha
  | convert y ss so al =>
    simp only [SState.initValue, h.part] at ha ⊢
    cases hp : A.part y ss with
    | none => rw [hp] at ha; cases ha
    | some p =>
      rw [hp] at ha; cases ha
      exact ⟨_, rfl, rfl, rfl, rfl, layout_corr hd so p.extents (fun k => h.get p _)⟩

theorem StCorr.addOwner (h : StCorr R A B) (x : Nat) {a : AbsArr T} {b : AbsArr U} (h1 : b.bases = a.bases) (h2 : b.extents = a.extents) (h3 : b.order = a.order)
    (h4 : List.Forall₂ R a.vals b.vals) : StCorr R (A.addOwner x a) (B.addOwner x b) := by
  unfold SState.addOwner
  rw [h1, h2, h3, h.count]
  exact (h.addStore h4).setVar _ _

theorem step_corr {dflt : T} {dflt' : U} {eq lt : T → T → Bool} {eq' lt' : U → U → Bool} (hd : R dflt dflt')
    (he : ∀ v u v' u', R v u → R v' u' → eq v v' = eq' u u') (hl : ∀ v u v' u', R v u → R v' u' → lt v v' = lt' u u')
    (h : StCorr R A B) {c : SCmd T} {c' : SCmd U} (hc : c.Corr R c') {o : CObs T} {A' : SState T} (hs : A.step dflt eq lt c = some (o, A')) :
    ∃ o' B', B.step dflt' eq' lt' c' = some (o', B') ∧ o.Corr R o' ∧ StCorr R A' B' := by
  cases hc with
  | buffer x hv =>
    cases hs
    exact ⟨_, _, rfl, .unit, by rw [h.count]; exact (h.addStore hv).setVar _ _⟩
  | construct x i =>
    simp only [SState.step] at hs ⊢
    cases hi : A.initValue dflt i with
    | none => rw [hi] at hs; cases hs
    | some a =>
      rw [hi] at hs; cases hs
      obtain ⟨b, e1, e2, e3, e4, e5⟩ := h.initValue hd hi
      exact ⟨_, _, by rw [e1]; rfl, .unit, h.addOwner x e2 e3 e4 e5⟩
  | refTo x y first n es so =>
    simp only [SState.step, h.dataOf] at hs ⊢
    cases hi : A.dataOf y with
    | none => rw [hi] at hs; cases hs
    | some d => rw [hi] at hs; cases hs; exact ⟨_, _, rfl, .unit, h.setVar _ _⟩
  | refGen x y first n rs so =>
    simp only [SState.step, h.dataOf] at hs ⊢
    cases hi : A.dataOf y with
    | none => rw [hi] at hs; cases hs
    | some d => rw [hi] at hs; cases hs; exact ⟨_, _, rfl, .unit, h.setVar _ _⟩
  | refCopy x y =>
    simp only [SState.step, h.vars] at hs ⊢
    split at hs
    · cases hs; exact ⟨_, _, rfl, .unit, h.setVar _ _⟩
    · cases hs; exact ⟨_, _, rfl, .unit, h.setVar _ _⟩
    · cases hs
  | hold x y ss xs =>
    simp only [SState.step, h.part] at hs ⊢
    cases hp : A.part y (ss ++ [.view xs]) with
    | none => rw [hp] at hs; cases hs
    | some p => rw [hp] at hs; cases hs; exact ⟨_, _, rfl, .unit, h.setVar _ _⟩
  | holdCopy x y =>
    simp only [SState.step, h.vars] at hs ⊢
    split at hs
    · cases hs; exact ⟨_, _, rfl, .unit, h.setVar _ _⟩
    · cases hs
  | holdSub x y i =>
    simp only [SState.step, h.part] at hs ⊢
    cases hp : A.part y [.at i] with
    | none => rw [hp] at hs; cases hs
    | some p =>
      rw [hp] at hs; cases hs
      exact ⟨_, _, rfl, .unit, by rw [show B.objectOf y = A.objectOf y by simp [SState.objectOf, h.vars]]; exact h.setVar _ _⟩
  | destroy x =>
    simp only [SState.step, h.vars] at hs ⊢
    split at hs
    · cases hs; exact ⟨_, _, rfl, .unit, (h.setStore _ .none).setVar _ _⟩
    · cases hs; exact ⟨_, _, rfl, .unit, (h.setStore _ .none).setVar _ _⟩
    · rename_i h1 h2
      cases hs
      exact ⟨_, _, rfl, .unit, h.setVar _ _⟩
  | reindex x bs =>
    simp only [SState.step, h.vars] at hs ⊢
    split at hs
    · cases hs; exact ⟨_, _, rfl, .unit, h.setVar _ _⟩
    · cases hs; exact ⟨_, _, rfl, .unit, h.setVar _ _⟩
    · cases hs; exact ⟨_, _, rfl, .unit, h.setVar _ _⟩
    · cases hs
  | reshape x es =>
    simp only [SState.step, h.vars] at hs ⊢
    split at hs
    · cases hs; exact ⟨_, _, rfl, .unit, h.setVar _ _⟩
    · cases hs; exact ⟨_, _, rfl, .unit, h.setVar _ _⟩
    · cases hs
  | resize x rs =>
    simp only [SState.step, h.vars] at hs ⊢
    split at hs
    · rename_i g hg
      cases hv : A.stores g.store with
      | none => rw [hv] at hs; cases hs
      | some vs =>
        rw [hv] at hs; cases hs
        obtain ⟨us, e1, e2⟩ := h.store hv
        exact ⟨_, _, by rw [e1]; rfl, .unit, (h.setStore _ .none).addOwner _ rfl rfl rfl (resizedVals_corr hd _ _ _ e2 _)⟩
    · cases hs
  | @fill x vs us hvu =>
    have key : ∀ (g : SArr) (ws : List T) (ws' : List U), List.Forall₂ R ws ws' →
        StCorr R (A.setStore g.store (some (ws.take g.first ++ vs.take g.extents.prod ++ ws.drop (g.first + (vs.take g.extents.prod).length))))
          (B.setStore g.store (some (ws'.take g.first ++ us.take g.extents.prod ++ ws'.drop (g.first + (us.take g.extents.prod).length)))) := by
      intro g ws ws' hw
      refine h.setStore _ (.some ?_)
      have hl : (us.take g.extents.prod).length = (vs.take g.extents.prod).length := (List.forall₂_take _ hvu).length_eq.symm
      rw [hl]
      exact List.rel_append (List.rel_append (List.forall₂_take _ hw) (List.forall₂_take _ hvu)) (List.forall₂_drop _ hw)
    simp only [SState.step, h.vars] at hs ⊢
    split at hs
    · rename_i g hg
      cases hv : A.stores g.store with
      | none => rw [hv] at hs; cases hs
      | some ws =>
        rw [hv] at hs; cases hs
        obtain ⟨ws', e1, e2⟩ := h.store hv
        exact ⟨_, _, by rw [e1]; rfl, .unit, key g ws ws' e2⟩
    · rename_i g hg
      cases hv : A.stores g.store with
      | none => rw [hv] at hs; cases hs
      | some ws =>
        rw [hv] at hs; cases hs
        obtain ⟨ws', e1, e2⟩ := h.store hv
        exact ⟨_, _, by rw [e1]; rfl, .unit, key g ws ws' e2⟩
    · cases hs
  | assign x ss y ss' =>
    simp only [SState.step, h.part, Option.bind_eq_some_iff, Option.map_eq_some_iff] at hs ⊢
    obtain ⟨p, hp, q, hq, A1, hA, he⟩ := hs
    cases he
    obtain ⟨B', e1, e2⟩ := h.copy _ hA
    exact ⟨_, _, ⟨p, hp, q, hq, B', e1, rfl⟩, .unit, e2⟩
  | copyArray x ss y ss' =>
    simp only [SState.step, h.part, Option.bind_eq_some_iff, Option.map_eq_some_iff] at hs ⊢
    obtain ⟨p, hp, q, hq, A1, hA, he⟩ := hs
    cases he
    obtain ⟨B', e1, e2⟩ := h.copy _ hA
    exact ⟨_, _, ⟨p, hp, q, hq, B', e1, rfl⟩, .unit, e2⟩
  | read x ss idx =>
    simp only [SState.step, h.part, Option.bind_eq_some_iff, Option.map_eq_some_iff] at hs ⊢
    obtain ⟨p, hp, v, hv, he⟩ := hs
    cases he
    obtain ⟨u, e1, e2⟩ := h.get_some hv
    exact ⟨_, _, ⟨p, hp, u, e1, rfl⟩, .value e2, h⟩
  | write x ss idx hvu =>
    simp only [SState.step, h.part, Option.bind_eq_some_iff, Option.map_eq_some_iff] at hs ⊢
    obtain ⟨p, hp, A1, hA, he⟩ := hs
    cases he
    obtain ⟨B', e1, e2⟩ := h.put hvu hA
    exact ⟨_, _, ⟨p, hp, B', e1, rfl⟩, .unit, e2⟩
  | forEach x ss hf =>
    simp only [SState.step, h.part, Option.bind_eq_some_iff, Option.map_eq_some_iff] at hs ⊢
    obtain ⟨p, hp, A1, hA, he⟩ := hs
    cases he
    obtain ⟨B', e1, e2⟩ := StCorr.map hf _ h hA
    exact ⟨_, _, ⟨p, hp, B', e1, rfl⟩, .unit, e2⟩
  | traverse x ss =>
    simp only [SState.step, h.part, Option.bind_eq_some_iff, Option.map_eq_some_iff] at hs ⊢
    obtain ⟨p, hp, vs, hv, he⟩ := hs
    cases he
    have := rel_mapM (fun k => h.get p (atPos p.bases k)) (positions p.extents)
    rw [show (positions p.extents).mapM (fun k => A.get p (atPos p.bases k)) = some vs from hv] at this
    cases hb : (positions p.extents).mapM (fun k => B.get p (atPos p.bases k)) with
    | none => rw [hb] at this; cases this
    | some us =>
      rw [hb] at this
      cases this with
      | some hh => exact ⟨_, _, ⟨p, hp, us, hb, rfl⟩, .values hh, h⟩
  | equal x ss y ss' =>
    simp only [SState.step, h.part, Option.bind_eq_some_iff, Option.map_eq_some_iff] at hs ⊢
    obtain ⟨p, hp, q, hq, hx⟩ := hs
    cases hx
    refine ⟨_, _, ⟨p, hp, q, hq, rfl⟩, ?_, h⟩
    rw [h.sameElems he]
    exact .bool _
  | less x ss y ss' =>
    simp only [SState.step, h.part, Option.bind_eq_some_iff, Option.map_eq_some_iff] at hs ⊢
    obtain ⟨p, hp, q, hq, hx⟩ := hs
    cases hx
    refine ⟨_, _, ⟨p, hp, q, hq, rfl⟩, ?_, h⟩
    have hv := valLess_congr (R := R) hl p.extents.length (A.nestedValue dflt p p.extents.length) (A.nestedValue dflt q p.extents.length)
      (B.nestedValue dflt' p p.extents.length) (B.nestedValue dflt' q p.extents.length)
      (nested_corr _ _ (fun k => rel_getD (h.get p _) hd)) (nested_corr _ _ (fun k => rel_getD (h.get q _) hd))
    rw [decide_eq_decide.mpr hv]
    exact .bool _
  | shape x ss =>
    simp only [SState.step, h.part] at hs ⊢
    cases hp : A.part x ss with
    | none => rw [hp] at hs; cases hs
    | some p => rw [hp] at hs; cases hs; exact ⟨_, _, rfl, .shape _ _, h⟩

/-! ### Programs -/

theorem dialog_corr (dbg dbg' : Bool) {dflt : T} {dflt' : U} {eq lt : T → T → Bool} {eq' lt' : U → U → Bool} (hd : R dflt dflt')
    (he : ∀ v u v' u', R v u → R v' u' → eq v v' = eq' u u') (hl : ∀ v u v' u', R v u → R v' u' → lt v v' = lt' u u') {k : Dialog T} {k' : Dialog U} (hk : k.Corr R k') :
    ∀ {g g' : Ghost} {w : SWorld T} {w' : SWorld U} {A : SState T} {B : SState U}, RepG g w A → RepG g' w' B → StCorr R A B → k.Legal dflt eq lt A →
    ∃ os w1 os' w1', k.exec dbg dflt eq lt w = some (os, w1) ∧ k'.exec dbg' dflt' eq' lt' w' = some (os', w1') ∧ List.Forall₂ (CObs.Corr R) os os' ∧
      ∃ g1 g1' A1 B1, RepG g1 w1 A1 ∧ RepG g1' w1' B1 ∧ StCorr R A1 B1 := by
  induction hk with
  | done => intro g g' w w' A B h h' hc _; exact ⟨[], w, [], w', rfl, rfl, .nil, g, g', A, B, h, h', hc⟩
  | cmd hcc _ ih =>
    intro g g' w w' A B h h' hc hleg
    obtain ⟨o, A1, w1, g1, e1, e2, e3⟩ := scmd_ok dbg dflt eq lt h _ hleg.1
    obtain ⟨o', A2, w2, g2, f1, f2, f3⟩ := scmd_ok dbg' dflt' eq' lt' h' _ (hc.legal hcc hleg.1)
    obtain ⟨o2, B2, i1, i2, i3⟩ := step_corr (lt' := lt') hd he hl hc hcc e1
    rw [f1] at i1; cases i1
    obtain ⟨os, v1, os', v1', j1, j2, j3, j4⟩ := ih o o' i2 e3 f3 i3 (hleg.2 o A1 e1)
    exact ⟨o :: os, v1, o' :: os', v1', by simp [Dialog.exec, e2, j1], by simp [Dialog.exec, f2, j2], .cons i2 j3, j4⟩

theorem rep_unset_iff {g : Ghost} {w : SWorld T} {A : SState T} (h : RepG g w A) (x : Nat) : w.vars x = none ↔ A.vars x = none := by
  refine ⟨fun hw => ?_, h.unset⟩
  have hv := h.var x
  rw [hw] at hv
  cases hA : A.vars x with
  | none => rfl
  | some v => rw [hA] at hv; exact hv.elim

theorem corr_start : StCorr R (SState.start : SState T) (SState.start : SState U) := ⟨rfl, rfl, fun _ => .none⟩

/-- **C93.** The same program over two element types: if the default values correspond, the comparison operators agree on corresponding values, and the program does the
same except that the values and functors it uses correspond, then, if the program is legal over the first element type, the library completes both (in any build modes), and what they
observe is the same except that values correspond; the same variables exist at the end. -/
theorem C93_same_program (dbg dbg' : Bool) {dflt : T} {dflt' : U} {eq lt : T → T → Bool} {eq' lt' : U → U → Bool} (hd : R dflt dflt')
    (he : ∀ v u v' u', R v u → R v' u' → eq v v' = eq' u u') (hl : ∀ v u v' u', R v u → R v' u' → lt v v' = lt' u u') {k : Dialog T} {k' : Dialog U} (hk : k.Corr R k')
    (hleg : k.Legal dflt eq lt SState.start) :
    ∃ os w os' w', k.exec dbg dflt eq lt SWorld.start = some (os, w) ∧ k'.exec dbg' dflt' eq' lt' SWorld.start = some (os', w') ∧ List.Forall₂ (CObs.Corr R) os os' ∧
      ∀ x, w'.vars x = none ↔ w.vars x = none := by
  obtain ⟨os, w, os', w', e1, e2, e3, g, g', A, B, h, h', hc⟩ := dialog_corr dbg dbg' hd he hl hk share_start share_start corr_start hleg
  refine ⟨os, w, os', w', e1, e2, e3, fun x => ?_⟩
  rw [rep_unset_iff h' x, rep_unset_iff h x, hc.vars]

theorem corr_self {P : T → Prop} {o o' : CObs T} (h : o.Corr (fun v u => v = u ∧ P v) o') : o = o' ∧ ∀ v ∈ o.elems, P v := by
  have key : ∀ {vs us : List T}, List.Forall₂ (fun v u => v = u ∧ P v) vs us → vs = us ∧ ∀ v ∈ vs, P v := by
    intro vs us h
    induction h with
    | nil => simp
    | cons h _ ih =>
      obtain ⟨rfl, hp⟩ := h
      refine ⟨by rw [ih.1], fun v hv => ?_⟩
      rcases List.mem_cons.mp hv with rfl | hv
      · exact hp
      · exact ih.2 v hv
  cases h with
  | value h => exact ⟨by rw [h.1], fun v hv => by simp [CObs.elems] at hv; rw [hv]; exact h.2⟩
  | values h => exact ⟨by rw [(key h).1], (key h).2⟩
  | _ => exact ⟨rfl, fun v hv => by simp [CObs.elems] at hv⟩

theorem forall₂_self {P : T → Prop} {vs : List T} (h : ∀ v ∈ vs, P v) : List.Forall₂ (fun v u => v = u ∧ P v) vs vs :=
  List.forall₂_same.mpr (fun v hv => ⟨rfl, h v hv⟩)

theorem within_corr {P : T → Prop} (k : Dialog T) (h : k.Within P) : k.Corr (fun v u => v = u ∧ P v) k := by
  induction k with
  | done => exact .done
  | cmd c k ih =>
    refine .cmd ?_ (fun o o' ho => ?_)
    · have hc := h.1
      cases c with
      | buffer x vs => exact .buffer x (forall₂_self hc)
      | fill x vs => exact .fill x (forall₂_self hc)
      | write x ss idx v => exact .write x ss idx ⟨rfl, hc⟩
      | forEach x ss f => exact .forEach x ss (fun v u hv => ⟨by rw [hv.1], hc v hv.2⟩)
      | _ => constructor
    · obtain ⟨rfl, hp⟩ := corr_self ho
      exact ih o (h.2 o hp)

/-- **C93, no values out of nowhere.** If the default value satisfies `P`, every value the program supplies satisfies `P` as long as all it has observed do, and its functors preserve
`P`, then every element value the program ever observes satisfies `P`. -/
theorem C93_no_invented_values (dbg : Bool) {dflt : T} {eq lt : T → T → Bool} {P : T → Prop} (hd : P dflt) {k : Dialog T} (hk : k.Within P)
    (hleg : k.Legal dflt eq lt SState.start) :
    ∃ os w, k.exec dbg dflt eq lt SWorld.start = some (os, w) ∧ ∀ o ∈ os, ∀ v ∈ CObs.elems o, P v := by
  obtain ⟨os, w, os', w', e1, _, e3, _⟩ := C93_same_program dbg dbg (R := fun v u => v = u ∧ P v) (eq' := eq) (lt' := lt) ⟨rfl, hd⟩
    (fun v u v' u' h h' => by rw [h.1, h'.1]) (fun v u v' u' h h' => by rw [h.1, h'.1]) (within_corr k hk) hleg
  refine ⟨os, w, e1, fun o ho => ?_⟩
  clear e1
  revert ho
  clear * - e3
  induction e3 with
  | nil => intro ho; cases ho
  | cons h _ ih =>
    intro ho
    rcases List.mem_cons.mp ho with rfl | ho
    · exact (corr_self h).2
    · exact ih ho

/-! ### A program that meets the hypotheses -/

/-- The values of an observed traversal, or none. -/
def sawValues : CObs T → List T
  | .values vs => vs
  | _ => []

/-- `multi_array<T,2> a(extents[2][2]); a.assign(vs); bool b = a[0] == a[1]; if (b) a[0][1] = v; else for_each(a[1], f); print(a); a.assign(what was printed, backwards); print(a);` -/
def paramProg (vs : List T) (v : T) (f : T → T) : Dialog T :=
  .cmd (.construct 0 (.extents 2 [2, 2] (StorageOrder.fortranOrder 2) 0)) (fun _ =>
    .cmd (.fill 0 vs) (fun _ =>
      .cmd (.equal 0 [.at 0] 0 [.at 1]) (fun o =>
        .cmd (match o with | .bool true => .write 0 [.at 0] [1] v | _ => .forEach 0 [.at 1] f) (fun _ =>
          .cmd (.traverse 0 []) (fun o => .cmd (.fill 0 (sawValues o).reverse) (fun _ => .cmd (.traverse 0 []) (fun _ => .done)))))))

theorem paramProg_corr {vs : List T} {us : List U} (hv : List.Forall₂ R vs us) {v : T} {u : U} (hvu : R v u) {f : T → T} {g : U → U} (hf : ∀ v u, R v u → R (f v) (g u)) :
    (paramProg vs v f).Corr R (paramProg us u g) := by
  refine .cmd (.construct _ _) (fun _ _ _ => .cmd (.fill _ hv) (fun _ _ _ => .cmd (.equal _ _ _ _) (fun o o' ho => .cmd ?_ (fun _ _ _ => .cmd (.traverse _ _) (fun p p' hp =>
    .cmd (.fill _ ?_) (fun _ _ _ => .cmd (.traverse _ _) (fun _ _ _ => .done)))))))
  · cases ho with
    | bool b => cases b with
      | true => exact .write _ _ _ hvu
      | false => exact .forEach _ _ hf
    | _ => exact .forEach _ _ hf
  · rw [List.forall₂_reverse_iff]
    cases hp with
    | values h => exact h
    | _ => exact .nil

theorem dialog_legal_cmd {dflt : T} {eq lt : T → T → Bool} {c : SCmd T} {k : CObs T → Dialog T} {A A' : SState T} {o : CObs T} (h1 : A.Legal c)
    (h2 : A.step dflt eq lt c = some (o, A')) (h3 : (k o).Legal dflt eq lt A') : (Dialog.cmd c k).Legal dflt eq lt A := by
  refine ⟨h1, fun o' A'' h => ?_⟩
  rw [h2] at h
  cases h
  exact h3

theorem paramProg_legal (f : Nat → Nat) : (paramProg [1, 2, 3, 4] 7 f).Legal 0 (fun a b => a == b) (fun a b => decide (a < b)) SState.start := by
  refine dialog_legal_cmd ⟨rfl, fortranOrder_valid 2, rfl⟩ rfl ?_
  refine dialog_legal_cmd ⟨_, .inl rfl, nofun⟩ rfl ?_
  have hat : ∀ i : Int, 0 ≤ i → i < 2 → ∀ p : APart, p.bases = [0, 0] → p.extents = [2, 2] → p.LegalPath [.at i] := by
    intro i h1 h2 p hb he
    exact ⟨⟨0, [0], 2, [2], hb, he, h1, by omega⟩, trivial⟩
  refine dialog_legal_cmd (o := .bool false) ⟨_, _, ⟨_, _, rfl, rfl, nofun, hat 0 (by decide) (by decide) _ rfl rfl, rfl⟩,
    ⟨_, _, rfl, rfl, nofun, hat 1 (by decide) (by decide) _ rfl rfl, rfl⟩, rfl⟩ rfl ?_
  refine dialog_legal_cmd ⟨_, _, _, rfl, rfl, nofun, hat 1 (by decide) (by decide) _ rfl rfl, rfl⟩ rfl ?_
  refine dialog_legal_cmd ⟨_, _, _, rfl, rfl, nofun, trivial, rfl⟩ rfl ?_
  refine dialog_legal_cmd ⟨_, .inl rfl, nofun⟩ rfl ?_
  exact dialog_legal_cmd ⟨_, _, _, rfl, rfl, nofun, trivial, rfl⟩ rfl trivial

/-- What it prints. -/
example : ((paramProg [1, 2, 3, 4] 7 (· + 1)).exec true 0 (fun a b => a == b) (fun a b => decide (a < b)) (SWorld.start : SWorld Nat)).map (fun r => r.1) =
    some [.basic .unit, .basic .unit, .bool false, .basic .unit, .values [1, 3, 3, 5], .basic .unit, .values [5, 3, 3, 1]] := by
  decide +kernel

/-- All values that the program with another functor can see are below 10. -/
example : ∃ os w, (paramProg [1, 2, 3, 4] 7 (fun n => min (n + 1) 9)).exec true 0 (fun a b => a == b) (fun a b => decide (a < b)) SWorld.start = some (os, w) ∧
    ∀ o ∈ os, ∀ v ∈ CObs.elems o, v < 10 := by
  refine C93_no_invented_values true (P := fun v => v < 10) (by decide) ?_ (paramProg_legal _)
  refine ⟨trivial, fun _ _ => ⟨(show ∀ v ∈ [1, 2, 3, 4], v < 10 by decide), fun _ _ => ⟨trivial, fun o _ => ⟨?_, fun _ _ => ⟨trivial, fun o ho => ⟨?_, fun _ _ => ⟨trivial, fun _ _ => trivial⟩⟩⟩⟩⟩⟩⟩
  · split
    · show 7 < 10; decide
    · intro v _; show min (v + 1) 9 < 10; omega
  · intro v hv
    rw [List.mem_reverse] at hv
    cases o with
    | values vs => exact ho v hv
    | _ => cases hv

/-- Over `Nat` and over `Int`, values doubled: the observations correspond. -/
example : ∃ os w os' w', (paramProg [1, 2, 3, 4] 7 (· + 1)).exec true 0 (fun a b => a == b) (fun a b => decide (a < b)) SWorld.start = some (os, w) ∧
    (paramProg [2, 4, 6, 8] 14 (· + 2)).exec false 0 (fun a b => a == b) (fun a b => decide (a < b)) SWorld.start = some (os', w') ∧
    List.Forall₂ (CObs.Corr (fun (n : Nat) (i : Int) => i = 2 * n)) os os' ∧ ∀ x, w'.vars x = none ↔ w.vars x = none := by
  refine C93_same_program true false (R := fun (n : Nat) (i : Int) => i = 2 * n) (by decide) ?_ ?_ (paramProg_corr (by decide) (by decide) (by intro v u h; subst h; push_cast; ring)) ?_
  · intro v u v' u' h h'; subst h; subst h'; rw [Bool.eq_iff_iff]; simp
  · intro v u v' u' h h'; subst h; subst h'; simp
  · exact paramProg_legal _

end MultiArray.Props
