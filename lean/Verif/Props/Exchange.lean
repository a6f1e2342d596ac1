import Verif.Lemmas.Exchange
import Verif.Props.Prog

/-
Property theorems C69: exchanging arrays, rows and views through a temporary, as `std::swap`, `std::iter_swap`, `std::reverse` and every
algorithm built from exchanges of rows do.
-/
set_option autoImplicit false

namespace MultiArray.Props
open MultiArray Spec
variable {T : Type}

/-- What a copy between parts does, as a step of a program. -/
theorem exec_assignPart (dbg : Bool) (dflt : T) (eq lt : T → T → Bool) {w : World T} {A : AState T} (h : w.Rep A) {x y : Nat}
    {ss ss' : List Sel} {p q : APart} (hp : A.Part x ss p) (hq : A.Part y ss' q) (he : p.extents = q.extents)
    (hdis : x = y → p = q ∨ p.Disjoint q) :
    ∃ A' w', w.exec dbg dflt eq lt (.assignPart x ss y ss') = some (.basic .unit, w') ∧ w'.Rep A' ∧
      (∀ z, A'.header z = A.header z) ∧ (∀ z, z ≠ x → A' z = A z) ∧
      (∀ k, InShape p.extents k → A'.get x (p.root (atPos p.bases k)) = A.get y (q.root (atPos q.bases k))) ∧
      (∀ idx, A.InRange x idx → (∀ i, InBox p.bases p.extents i → p.root i ≠ idx) → A'.get x idx = A.get x idx) := by
  obtain ⟨o, A', w', e1, e2, e3⟩ := C67_step_refines dbg dflt eq lt h (.assignPart x ss y ss') ⟨p, q, hp, hq, he⟩
  have hpp : A.part x ss = some p := by obtain ⟨a, hA, _, rfl⟩ := hp; simp [AState.part, hA]
  have hqq : A.part y ss' = some q := by obtain ⟨a, hA, _, rfl⟩ := hq; simp [AState.part, hA]
  simp only [AState.step, hpp, hqq, Option.bind_some, Option.map_eq_some_iff, Prod.mk.injEq] at e1
  obtain ⟨A'', hc, rfl, rfl⟩ := e1
  exact ⟨A'', w', e2, e3, copy_parts h hp hq he hdis hc⟩

theorem inRange_header {A A' : AState T} {x : Nat} (h : A'.header x = A.header x) {idx : List Int} (hi : A.InRange x idx) : A'.InRange x idx := by
  obtain ⟨a, hA, hin⟩ := hi
  simp only [AState.header, hA, Option.map_some] at h
  cases hA' : A' x with
  | none => rw [hA'] at h; cases h
  | some a' =>
    rw [hA'] at h
    simp only [Option.map_some, Option.some.injEq, Prod.mk.injEq] at h
    exact ⟨a', hA', by rw [h.1, h.2.1]; exact hin⟩

theorem get_of_eq {A A' : AState T} {z : Nat} (h : A' z = A z) (idx : List Int) : A'.get z idx = A.get z idx := by
  simp [AState.get, h]

theorem header_of_eq {A A' : AState T} {z : Nat} (h : A' z = A z) : A'.header z = A.header z := by simp [AState.header, h]

/-- The temporary of an exchange: a variable with the shape of `p` whose elements are those of part `p` of `x`. -/
theorem exchange_core (dbg : Bool) (dflt : T) (eq lt : T → T → Bool) {w1 : World T} {A A1 : AState T} (h : w1.Rep A1) {x y t : Nat}
    {ss ss' : List Sel} {p q : APart} (hp : A.Part x ss p) (hq : A.Part y ss' q) (he : p.extents = q.extents)
    (hdis : x = y → p = q ∨ p.Disjoint q) (hxt : x ≠ t) (hyt : y ≠ t) (hkeep : ∀ z, z ≠ t → A1 z = A z) {tmp : AbsArr T} (ht : A1 t = some tmp)
    (hte : tmp.extents = p.extents)
    (htv : ∀ k, InShape p.extents k → A1.get t (atPos tmp.bases k) = A.get x (p.root (atPos p.bases k))) (hA : A t = none) :
    ∃ A' w2 w3 w4, w1.exec dbg dflt eq lt (.assignPart x ss y ss') = some (.basic .unit, w2) ∧
      w2.exec dbg dflt eq lt (.assignPart y ss' t []) = some (.basic .unit, w3) ∧
      w3.exec dbg dflt eq lt (.destroy t) = some (.basic .unit, w4) ∧ w4.Rep A' ∧ Exchanged A A' x p y q := by
  have hp1 := part_header (header_of_eq (hkeep x hxt)) hp
  have hq1 := part_header (header_of_eq (hkeep y hyt)) hq
  obtain ⟨A2, w2, x2, r2, hd2, ho2, hv2, hn2⟩ := exec_assignPart dbg dflt eq lt h hp1 hq1 he hdis
  have ht2 : A2 t = some tmp := by rw [ho2 t hxt.symm, ht]
  have htw : A2.Part t [] tmp.whole := ⟨tmp, ht2, trivial, rfl⟩
  obtain ⟨A3, w3, x3, r3, hd3, ho3, hv3, hn3⟩ := exec_assignPart dbg dflt eq lt r2 (part_header (hd2 y) hq1) htw
    (he.symm.trans hte.symm) (fun hh => absurd hh hyt)
  have ht3 : A3 t = some tmp := by rw [ho3 t hyt.symm, ht2]
  obtain ⟨o, A4, w4, e1, e2, r4⟩ := C67_step_refines dbg dflt eq lt r3 (.destroy t) ⟨tmp, ht3⟩
  simp only [AState.step, Option.some.injEq, Prod.mk.injEq] at e1
  obtain ⟨rfl, rfl⟩ := e1
  have hA4 : ∀ z, z ≠ t → (A3.set t none) z = A3 z := fun z hz => AState.set_other _ hz _
  have hq3 : ∀ k, InShape p.extents k → A3.get y (q.root (atPos q.bases k)) = A.get x (p.root (atPos p.bases k)) := by
    intro k hk
    rw [hv3 k (by rw [← he]; exact hk), ← htv k hk]
    exact get_of_eq (ho2 t hxt.symm) _
  obtain ⟨a, hAx, _⟩ := id hp
  obtain ⟨b, hAy, _⟩ := id hq
  have gp := h.goodPart (by rw [hkeep x hxt]; exact hAx) hp1
  have gq := h.goodPart (by rw [hkeep y hyt]; exact hAy) hq1
  refine ⟨A3.set t none, w2, w3, w4, x2, x3, e2, r4, ?_, ?_, ?_, ?_⟩
  · intro z
    by_cases hz : z = t
    · subst hz; simp [AState.header, AState.set, hA]
    · rw [header_of_eq (hA4 z hz), hd3, hd2, header_of_eq (hkeep z hz)]
  · intro k hk
    rw [get_of_eq (hA4 x hxt)]
    by_cases hxy : x = y
    · rcases hdis hxy with hpq | hd
      · subst hpq; subst hxy
        exact hq3 k hk
      · subst hxy
        have hr : A2.InRange x (p.root (atPos p.bases k)) := by
          apply inRange_header (hd2 x)
          exact ⟨a, by rw [hkeep x hxt]; exact hAx, gp.inBox _ (gp.pos hk)⟩
        rw [hn3 _ hr (fun i hi => (hd _ _ (gp.pos hk) hi).symm), hv2 k hk]
        exact get_of_eq (hkeep x hxt) _
    · rw [get_of_eq (ho3 x hxy), hv2 k hk]
      exact get_of_eq (hkeep y hyt) _
  · intro k hk
    rw [get_of_eq (hA4 y hyt)]
    exact hq3 k hk
  · intro z idx hin hnx hny
    have hz : z ≠ t := by
      rintro rfl
      obtain ⟨c, hc, _⟩ := hin
      rw [hA] at hc; cases hc
    rw [get_of_eq (hA4 z hz), ← get_of_eq (hkeep z hz) idx]
    have hin1 := inRange_header (header_of_eq (hkeep z hz)) hin
    have s2 : A2.get z idx = A1.get z idx := by
      by_cases hzx : z = x
      · subst hzx; exact hn2 idx hin1 (hnx rfl)
      · exact get_of_eq (ho2 z hzx) idx
    rw [← s2]
    by_cases hzy : z = y
    · subst hzy; exact hn3 idx (inRange_header (hd2 z) hin1) (hny rfl)
    · exact get_of_eq (ho3 z hzy) idx

/-- Exchanging two parts (rows, subarrays, views) of the same shape through a temporary: from any program state, the program completes
(in both build modes), the elements change places position by position, all other elements of all arrays keep their values, and all
storage that has not been released belongs to the variables that existed before (`Rep`).  The parts may belong to one array if
they share no element, or are the same expression. -/
theorem C69_exchange_parts (dbg : Bool) (dflt : T) (eq lt : T → T → Bool) {w : World T} {A : AState T} (h : w.Rep A) {x y t : Nat}
    {ss ss' : List Sel} {p q : APart} (hp : A.Part x ss p) (hq : A.Part y ss' q) (he : p.extents = q.extents)
    (hdis : x = y → ss = ss' ∨ p.Disjoint q) (ht : A t = none) (hn : 0 < p.extents.length) {so : StorageOrder}
    (hso : ValidOrder p.extents.length so) (alloc : Nat) :
    ∃ A' w', World.execAll dbg dflt eq lt (exchange x ss y ss' t so alloc) w = some (List.replicate 4 (.basic .unit), w') ∧ w'.Rep A' ∧
      Exchanged A A' x p y q := by
  obtain ⟨o, A1, w1, e1, x1, r1⟩ := C67_step_refines dbg dflt eq lt h (.construct t (.convert x ss so alloc)) ⟨ht, p, hp, hn, hso⟩
  have hpp : A.part x ss = some p := by obtain ⟨a, hA, _, rfl⟩ := hp; simp [AState.part, hA]
  simp only [AState.step, CInit.value, hpp, Option.map_some, Option.some.injEq, Prod.mk.injEq] at e1
  obtain ⟨rfl, rfl⟩ := e1
  have live : ∀ z ss p, A.Part z ss p → z ≠ t := by
    rintro z ss p ⟨c, hc, _⟩ rfl
    rw [ht] at hc; cases hc
  have hdis' : x = y → p = q ∨ p.Disjoint q := by
    intro hxy
    rcases hdis hxy with hs | hd
    · subst hxy; subst hs
      obtain ⟨a, h1, _, rfl⟩ := hp
      obtain ⟨b, h2, _, rfl⟩ := hq
      rw [h1] at h2; cases h2
      exact .inl rfl
    · exact .inr hd
  obtain ⟨a, hA, _⟩ := id hp
  have gp := h.goodPart hA hp
  have gt := r1.good (AState.set_same A t _)
  obtain ⟨A', w2, w3, w4, x2, x3, x4, r4, hex⟩ := exchange_core dbg dflt eq lt r1 hp hq he hdis' (live _ _ _ hp) (live _ _ _ hq)
    (fun z hz => AState.set_other _ hz _) (AState.set_same A t _) rfl (by
      intro k hk
      rw [AState.get_set_same]
      obtain ⟨m, d, hx, _, hpo, _⟩ := h.partOf false hp
      obtain ⟨v, _, hv⟩ := rep_elem h hx hpo hk
      rw [hv]
      exact layout_get gt gp.len rfl hk hv) ht
  exact ⟨A', w4, by simp [exchange, World.execAll, x1, x2, x3, x4], r4, hex⟩

/-- Whole-array assignment and assignment through the base class coincide for different objects. -/
theorem exec_assign_whole (dbg : Bool) (dflt : T) (eq lt : T → T → Bool) (w : World T) {u v : Nat} (huv : u ≠ v) :
    w.exec dbg dflt eq lt (.assignPart u [] v []) = w.exec dbg dflt eq lt (.assign u v) := by
  cases hu : w.objs u <;> cases hv : w.objs v <;>
    simp [World.exec, World.lookup, hu, hv, resolve, Res.val?, World.simple, World.step, MArr.assignFrom, huv, Result.ok?]

/-- `std::swap(a, b)` for two arrays of the same extents (index bases and storage orders may differ): the values are exchanged and each
array keeps its own index bases and storage order. -/
theorem C69_swap_arrays (dbg : Bool) (dflt : T) (eq lt : T → T → Bool) {w : World T} {A : AState T} (h : w.Rep A) {x y t : Nat}
    {a b : AbsArr T} (hx : A x = some a) (hy : A y = some b) (he : a.extents = b.extents) (hxy : x ≠ y) (ht : A t = none) :
    ∃ A' w', World.execAll dbg dflt eq lt (swapArrays x y t) w = some (List.replicate 4 (.basic .unit), w') ∧ w'.Rep A' ∧
      Exchanged A A' x a.whole y b.whole := by
  obtain ⟨o, A1, w1, e1, x1, r1⟩ := C67_step_refines dbg dflt eq lt h (.construct t (.copy x)) ⟨ht, a, hx⟩
  simp only [AState.step, CInit.value, hx, Option.map_some, Option.some.injEq, Prod.mk.injEq] at e1
  obtain ⟨rfl, rfl⟩ := e1
  have hxt : x ≠ t := by rintro rfl; rw [ht] at hx; cases hx
  have hyt : y ≠ t := by rintro rfl; rw [ht] at hy; cases hy
  obtain ⟨A', w2, w3, w4, x2, x3, x4, r4, hex⟩ := exchange_core dbg dflt eq lt r1 (A := A) (ss := []) (ss' := []) (p := a.whole) (q := b.whole)
    ⟨a, hx, trivial, rfl⟩ ⟨b, hy, trivial, rfl⟩ he (fun hh => absurd hh hxy) hxt hyt
    (fun z hz => AState.set_other _ hz _) (AState.set_same A t _) rfl (by
      intro k hk
      rw [AState.get_set_same]
      simp [AState.get, hx, AbsArr.whole]) ht
  refine ⟨A', w4, ?_, r4, hex⟩
  rw [exec_assign_whole dbg dflt eq lt w1 hxy] at x2
  rw [exec_assign_whole dbg dflt eq lt w2 hyt] at x3
  simp [swapArrays, World.execAll, x1, x2, x3, x4]

/-! ### Rows -/

theorem execAll_append (dbg : Bool) (dflt : T) (eq lt : T → T → Bool) (c c' : List (Cmd T)) {w w1 w2 : World T} {os os' : List (CObs T)}
    (h1 : World.execAll dbg dflt eq lt c w = some (os, w1)) (h2 : World.execAll dbg dflt eq lt c' w1 = some (os', w2)) :
    World.execAll dbg dflt eq lt (c ++ c') w = some (os ++ os', w2) := by
  induction c generalizing w os with
  | nil => cases h1; simpa using h2
  | cons x c ih =>
    simp only [World.execAll, Option.bind_eq_some_iff, Option.map_eq_some_iff] at h1
    obtain ⟨⟨o, v⟩, e1, ⟨os1, v1⟩, e2, e3⟩ := h1
    cases e3
    have := ih e2
    simp [World.execAll, e1, this]

theorem swapped_range {b : Int} {e : Nat} {i j r : Int} (hi : b ≤ i ∧ i < b + (e : Int)) (hj : b ≤ j ∧ j < b + (e : Int))
    (hr : b ≤ r ∧ r < b + (e : Int)) : b ≤ swapped i j r ∧ swapped i j r < b + (e : Int) := by
  unfold swapped
  split
  · exact hj
  · split
    · exact hi
    · exact hr

/-- One exchange of rows. -/
theorem exchange_row (dbg : Bool) (dflt : T) (eq lt : T → T → Bool) {w : World T} {A : AState T} (h : w.Rep A) {x t : Nat} {a : AbsArr T}
    (hx : A x = some a) {b : Int} {bs : List Int} {e : Nat} {es : List Nat} (hb : a.bases = b :: bs) (hes : a.extents = e :: es) (hn : 0 < es.length)
    (ht : A t = none) {so : StorageOrder} (hso : ValidOrder es.length so) (alloc : Nat) {i j : Int} (hi : b ≤ i ∧ i < b + (e : Int))
    (hj : b ≤ j ∧ j < b + (e : Int)) :
    ∃ A' w', World.execAll dbg dflt eq lt (exchange x [.at i] x [.at j] t so alloc) w = some (List.replicate 4 (.basic .unit), w') ∧ w'.Rep A' ∧
      (∀ z, A'.header z = A.header z) ∧ (∀ z idx, z ≠ x → A.InRange z idx → A'.get z idx = A.get z idx) ∧
      ∀ r idx, InBox (b :: bs) (e :: es) (r :: idx) → A'.get x (r :: idx) = A.get x (swapped i j r :: idx) := by
  have hpart : ∀ k, b ≤ k ∧ k < b + (e : Int) → A.Part x [.at k] ⟨bs, es, fun idx => k :: idx⟩ := by
    intro k hk
    refine ⟨a, hx, ⟨⟨b, bs, e, es, hb, hes, hk.1, hk.2⟩, trivial⟩, ?_⟩
    simp [APart.path, APart.sel, AbsArr.whole, hb, hes]
  obtain ⟨A', w', e1, e2, e3⟩ := C69_exchange_parts dbg dflt eq lt h (hpart i hi) (hpart j hj) rfl (by
    intro _
    by_cases hij : i = j
    · exact .inl (by rw [hij])
    · refine .inr (fun u v _ _ => ?_)
      simp [hij]) ht hn hso alloc
  refine ⟨A', w', e1, e2, e3.headers, ?_, ?_⟩
  · intro z idx hz hin
    exact e3.others z idx hin (fun hh => absurd hh hz) (fun hh => absurd hh hz)
  · intro r idx hin
    have hin2 : InBox bs es idx := hin.2.2
    have hat : ∃ k, InShape es k ∧ atPos bs k = idx := ⟨posList bs idx, posList_inShape hin2, atPos_posList hin2⟩
    obtain ⟨k, hk, hkk⟩ := hat
    have hl := e3.left k hk
    have hr := e3.right k hk
    simp only [hkk] at hl hr
    unfold swapped
    by_cases hri : r = i
    · rw [if_pos hri, hri]; exact hl
    · by_cases hrj : r = j
      · rw [if_neg hri, if_pos hrj, hrj]; exact hr
      · rw [if_neg hri, if_neg hrj]
        refine e3.others x (r :: idx) ⟨a, hx, by rw [hb, hes]; exact hin⟩ (fun _ u _ => ?_) (fun _ u _ => ?_)
        · simp [Ne.symm hri]
        · simp [Ne.symm hrj]

/-- Any sequence of exchanges of rows of an array: at the end, row `r` holds what row `rowSource l r` held at the start, where
`rowSource l` is the composition of the transpositions; no other array changes, and no shape changes. -/
theorem C69_row_permutation (dbg : Bool) (dflt : T) (eq lt : T → T → Bool) {w : World T} {A : AState T} (h : w.Rep A) {x t : Nat} {a : AbsArr T}
    (hx : A x = some a) {b : Int} {bs : List Int} {e : Nat} {es : List Nat} (hb : a.bases = b :: bs) (hes : a.extents = e :: es) (hn : 0 < es.length)
    (ht : A t = none) {so : StorageOrder} (hso : ValidOrder es.length so) (alloc : Nat) (l : List (Int × Int))
    (hl : ∀ ij ∈ l, (b ≤ ij.1 ∧ ij.1 < b + (e : Int)) ∧ (b ≤ ij.2 ∧ ij.2 < b + (e : Int))) :
    ∃ os A' w', World.execAll dbg dflt eq lt (exchangeRows x t so alloc l) w = some (os, w') ∧ w'.Rep A' ∧
      (∀ z, A'.header z = A.header z) ∧ (∀ z idx, z ≠ x → A.InRange z idx → A'.get z idx = A.get z idx) ∧
      ∀ r idx, InBox (b :: bs) (e :: es) (r :: idx) →
        InBox (b :: bs) (e :: es) (rowSource l r :: idx) ∧ A'.get x (r :: idx) = A.get x (rowSource l r :: idx) := by
  induction l generalizing w A a with
  | nil => exact ⟨[], A, w, rfl, h, fun _ => rfl, fun _ _ _ _ => rfl, fun r idx hin => ⟨hin, rfl⟩⟩
  | cons ij l ih =>
    obtain ⟨i, j⟩ := ij
    obtain ⟨hi, hj⟩ := hl (i, j) (by simp)
    obtain ⟨A1, w1, e1, r1, hd1, ho1, hv1⟩ := exchange_row dbg dflt eq lt h hx hb hes hn ht hso alloc hi hj
    have hx1 : ∃ a1, A1 x = some a1 ∧ a1.bases = b :: bs ∧ a1.extents = e :: es := by
      have := hd1 x
      simp only [AState.header, hx, Option.map_some] at this
      cases hA1 : A1 x with
      | none => rw [hA1] at this; cases this
      | some a1 =>
        rw [hA1] at this
        simp only [Option.map_some, Option.some.injEq, Prod.mk.injEq] at this
        exact ⟨a1, rfl, this.1.trans hb, this.2.1.trans hes⟩
    obtain ⟨a1, hx1, hb1, hes1⟩ := hx1
    have ht1 : A1 t = none := by
      have := hd1 t
      rw [show A.header t = none by simp [AState.header, ht]] at this
      simpa [AState.header] using this
    obtain ⟨os, A', w', e2, r2, hd2, ho2, hv2⟩ := ih r1 hx1 hb1 hes1 ht1 (fun ij hij => hl ij (by simp [hij]))
    refine ⟨List.replicate 4 (.basic .unit) ++ os, A', w', ?_, r2, fun z => (hd2 z).trans (hd1 z), ?_, ?_⟩
    · exact execAll_append dbg dflt eq lt _ _ e1 e2
    · intro z idx hz hin
      rw [ho2 z idx hz (inRange_header (hd1 z) hin), ho1 z idx hz hin]
    · intro r idx hin
      obtain ⟨g1, g2⟩ := hv2 r idx hin
      have hr := swapped_range hi hj ⟨g1.1, g1.2.1⟩
      exact ⟨⟨hr.1, hr.2, g1.2.2⟩, by rw [g2, hv1 _ _ g1]; rfl⟩

theorem rowSource_concat (l : List (Int × Int)) (i j r : Int) : rowSource (l ++ [(i, j)]) r = rowSource l (swapped i j r) := by
  induction l with
  | nil => rfl
  | cons ij l ih => obtain ⟨u, v⟩ := ij; simp only [List.cons_append, rowSource, ih]

theorem rowSource_reverse (b : Int) (e m : Nat) (hm : 2 * m ≤ e) (r : Int) :
    rowSource ((List.range m).map (fun (k : Nat) => (b + (k : Int), b + (e : Int) - 1 - (k : Int)))) r =
      if (b ≤ r ∧ r < b + (m : Int)) ∨ (b + (e : Int) - 1 - (m : Int) < r ∧ r < b + (e : Int)) then 2 * b + (e : Int) - 1 - r else r := by
  induction m generalizing r with
  | zero =>
    simp only [List.range_zero, List.map_nil, rowSource]
    rw [if_neg (by omega)]
  | succ m ih =>
    rw [List.range_succ, List.map_append, List.map_cons, List.map_nil, rowSource_concat, ih (by omega)]
    unfold swapped
    split_ifs <;> omega

/-- `std::reverse(a.begin(), a.end())` on an array of rows reverses the rows. -/
theorem C69_reverse_rows (dbg : Bool) (dflt : T) (eq lt : T → T → Bool) {w : World T} {A : AState T} (h : w.Rep A) {x t : Nat} {a : AbsArr T}
    (hx : A x = some a) {b : Int} {bs : List Int} {e : Nat} {es : List Nat} (hb : a.bases = b :: bs) (hes : a.extents = e :: es) (hn : 0 < es.length)
    (ht : A t = none) {so : StorageOrder} (hso : ValidOrder es.length so) (alloc : Nat) :
    ∃ os A' w', World.execAll dbg dflt eq lt (exchangeRows x t so alloc (reversePairs b e)) w = some (os, w') ∧ w'.Rep A' ∧
      (∀ z, A'.header z = A.header z) ∧
      ∀ r idx, InBox (b :: bs) (e :: es) (r :: idx) → A'.get x (r :: idx) = A.get x ((b + (b + (e : Int) - 1 - r)) :: idx) := by
  obtain ⟨os, A', w', e1, e2, e3, _, e5⟩ := C69_row_permutation dbg dflt eq lt h hx hb hes hn ht hso alloc (reversePairs b e) (by
    intro ij hij
    simp only [reversePairs, List.mem_map, List.mem_range] at hij
    obtain ⟨k, hk, rfl⟩ := hij
    constructor <;> constructor <;> dsimp only <;> omega)
  refine ⟨os, A', w', e1, e2, e3, ?_⟩
  intro r idx hin
  rw [(e5 r idx hin).2]
  have := rowSource_reverse b e (e / 2) (by omega) r
  rw [show rowSource (reversePairs b e) r = _ from this]
  congr 2
  have h1 := hin.1
  have h2 := hin.2.1
  split <;> omega

/-! ### States that meet the hypotheses -/

/-- Two arrays of one shape with different storage orders and index bases: `multi_array<int,2> a(extents[3][2])`,
`b(extents[range(1,4)][2], fortran_storage_order())`. -/
def exchangeSetup : List (Cmd Nat) :=
  [.construct 0 (.extents 2 [3, 2] (StorageOrder.cOrder 2) 0), .on 0 (.assign [1, 2, 3, 4, 5, 6]),
   .construct 1 (.gen 2 [⟨1, 4⟩, ⟨0, 2⟩] (StorageOrder.fortranOrder 2) 0), .on 1 (.assign [10, 20, 30, 40, 50, 60])]

theorem exchangeSetup_legal : AState.LegalRun 0 (fun a b => a == b) (fun a b => decide (a < b)) exchangeSetup noVars := by
  unfold exchangeSetup
  refine legalRun_cons ⟨rfl, cOrder_valid 2, rfl⟩ rfl ?_
  refine legalRun_cons ⟨_, rfl, trivial⟩ rfl ?_
  refine legalRun_cons ⟨rfl, fortranOrder_valid 2, rfl, by decide⟩ rfl ?_
  refine legalRun_cons ⟨_, rfl, trivial⟩ rfl trivial

theorem exchangeSetup_rep : ∃ (w : World Nat) (A : AState Nat), w.Rep A ∧
    A 0 = some ⟨[0, 0], [3, 2], StorageOrder.cOrder 2, [1, 2, 3, 4, 5, 6]⟩ ∧
    A 1 = some ⟨[1, 0], [3, 2], StorageOrder.fortranOrder 2, [10, 20, 30, 40, 50, 60]⟩ ∧ A 2 = none := by
  obtain ⟨os, A, w, e1, _, e3⟩ := execAll_refines true 0 (fun a b => a == b) (fun a b => decide (a < b)) exchangeSetup start_rep exchangeSetup_legal
  have hA : AState.run 0 (fun a b => a == b) (fun a b => decide (a < b)) exchangeSetup noVars = some (os, A) := e1
  refine ⟨w, A, e3, ?_⟩
  simp [exchangeSetup, AState.run, AState.step, CInit.value, AState.set, noVars, AbsArr.step] at hA
  obtain ⟨_, rfl⟩ := hA
  exact ⟨rfl, rfl, rfl⟩

/-- The hypotheses hold there: swap the arrays; reverse the rows of `a`. -/
example : ∃ (w : World Nat) (A : AState Nat),
    (∃ A' w', World.execAll true 0 (fun a b => a == b) (fun a b => decide (a < b)) (swapArrays 0 1 2) w =
      some (List.replicate 4 (.basic .unit), w') ∧ w'.Rep A' ∧ A'.get 0 [0, 1] = A.get 1 [1, 1]) ∧
    (∃ os A' w', World.execAll true 0 (fun a b => a == b) (fun a b => decide (a < b))
      (exchangeRows 0 2 (StorageOrder.cOrder 1) 0 (reversePairs 0 3)) w = some (os, w') ∧ w'.Rep A' ∧ A'.get 0 [0, 1] = A.get 0 [2, 1]) := by
  obtain ⟨w, A, h, h0, h1, h2⟩ := exchangeSetup_rep
  refine ⟨w, A, ?_, ?_⟩
  · obtain ⟨A', w', e1, e2, e3⟩ := C69_swap_arrays true 0 (fun a b => a == b) (fun a b => decide (a < b)) h h0 h1 rfl (by decide) h2
    exact ⟨A', w', e1, e2, e3.left [0, 1] (by decide)⟩
  · obtain ⟨os, A', w', e1, e2, _, e4⟩ := C69_reverse_rows true 0 (fun a b => a == b) (fun a b => decide (a < b)) h h0 rfl rfl (by decide) h2
      (cOrder_valid 1) 0
    exact ⟨os, A', w', e1, e2, e4 0 [1] (by decide)⟩

/-- The library's run: set up, exchange row 0 of `a` with row 2 of `b` and reverse the rows of `a`, swap the arrays, read them. -/
example : (World.execAll true 0 (fun a b => a == b) (fun a b => decide (a < b))
      (exchangeSetup ++ exchange 0 [.at 0] 1 [.at 2] 2 (StorageOrder.cOrder 1) 0 ++
        exchangeRows 0 2 (StorageOrder.cOrder 1) 0 (reversePairs 0 3) ++ swapArrays 0 1 2 ++ [.traverse 0 [], .traverse 1 []])
      (World.start [])).map (fun r => r.1.drop 16) =
    some [.values [10, 40, 1, 2, 30, 60], .values [5, 6, 3, 4, 20, 50]] := by
  decide +kernel

/-! ### Instances: the theorems applied to concrete cases, whose hypotheses are thereby met -/

example : ∃ (w : World Nat) (A A' : AState Nat) (os : List (CObs Nat)) (w' : World Nat),
    World.execAll true 0 (fun a b => a == b) (fun a b => decide (a < b)) (exchangeRows 0 2 (StorageOrder.cOrder 1) 0 [(0, 2), (1, 2)]) w =
      some (os, w') ∧ w'.Rep A' ∧ A'.get 0 [0, 1] = A.get 0 [2, 1] := by
  obtain ⟨w, A, h, h0, h1, h2⟩ := exchangeSetup_rep
  obtain ⟨os, A', w', e1, e2, _, _, e4⟩ := C69_row_permutation true 0 (fun a b => a == b) (fun a b => decide (a < b)) h h0 rfl rfl (by decide) h2
    (cOrder_valid 1) 0 [(0, 2), (1, 2)] (by decide)
  exact ⟨w, A, A', os, w', e1, e2, (e4 0 [1] (by decide)).2⟩

/- end of instances -/

end MultiArray.Props
