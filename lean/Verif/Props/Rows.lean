import Verif.Lemmas.RowsExec
import Mathlib.Data.List.Sort

/- Property theorems C92: iterator algorithms on the rows of arrays of two or more dimensions. -/
set_option autoImplicit false

namespace MultiArray.Props
open MultiArray MultiArray.Spec
variable {T α : Type}

/-- **C92.** Whatever algorithm a program runs on the rows of arrays, subarrays and views through iterators, with temporary rows, gives the result it gives
on plain lists of rows, and leaves the rows as that leaves the lists; every other element keeps its value, the temporaries
are what they are on plain lists, and nothing throws, fails an assertion or is undefined. -/
theorem C92_algorithms_on_rows (dbg : Bool) (dflt : T) (eq lt : T → T → Bool) (alloc : Nat) {w : World T} {A : AState T} (hw : w.Rep A)
    {seqs : Nat → Option (Nat × List Sel)} {free : Nat → Nat} {es : List Nat} (S : RowSetup A seqs free es) {R R' : Rows T} (hR : A.HoldsRows seqs R)
    (hT : R.tmps = fun _ => none) (alg : RAlg T α) {a : α} (hrun : alg.run eq lt (A.rowCount seqs) (fun _ => none) R = some (a, R')) :
    ∃ w' A', alg.exec dbg dflt eq lt seqs free alloc (fun _ => none) w = some (a, w') ∧ w'.Rep A' ∧ A'.HoldsRows seqs R' ∧ A.OnlyRows A' seqs free ∧
      ∀ t, match R'.tmps t with
        | none => A' (free t) = none
        | some v => ∃ m, A' (free t) = some m ∧ m.extents = es ∧ A'.values (free t) m.whole = some v := by
  have h0 : RowInv dbg A seqs free es (fun c => (seqs c).bind (fun x => w.lookup dbg x.1 x.2)) w A R :=
    ⟨hw, fun c x ss h => by simp [h], hR, fun t _ => S.fresh t, fun t v h => by simp [hT] at h, ⟨fun _ _ => rfl, fun _ _ _ _ => rfl⟩, fun t a h => by rw [S.fresh t] at h; cases h⟩
  obtain ⟨w', A', f1, f2⟩ := rowsExec_run dflt eq lt alloc S alg (fun _ => none) (fun _ => none) w A R h0 (fun r sp h => by cases h) a R' hrun
  refine ⟨w', A', f1, f2.rep, f2.rows, f2.only, fun t => ?_⟩
  cases ht : R'.tmps t with
  | none => exact f2.dead t ht
  | some v => exact f2.live t v ht

theorem mapM_exists {β γ : Type} {f : β → Option γ} : ∀ {l : List β}, (∀ k ∈ l, ∃ v, f k = some v) → ∃ v, l.mapM f = some v
  | [], _ => ⟨[], rfl⟩
  | k :: l, h => by
    obtain ⟨x, hx⟩ := h k (by simp)
    obtain ⟨v, hv⟩ := mapM_exists (l := l) (fun k hk => h k (by simp [hk]))
    exact ⟨x :: v, by simp [List.mapM_cons, hx, hv]⟩

/-- There always are such lists of rows. -/
theorem C92_rows_exist {w : World T} {A : AState T} (hw : w.Rep A) {seqs : Nat → Option (Nat × List Sel)} {free : Nat → Nat} {es : List Nat}
    (S : RowSetup A seqs free es) : ∃ R : Rows T, A.HoldsRows seqs R ∧ R.tmps = fun _ => none := by
  have key : ∀ c, ∃ l : List (List T), ∀ x ss p, seqs c = some (x, ss) → A.part x ss = some p →
      l.length = p.extents.headD 0 ∧ ∀ i v, l[i]? = some v → A.values x (p.rowPart i) = some v := by
    intro c
    cases hc : seqs c with
    | none => exact ⟨[], fun x ss p h => by cases h⟩
    | some xs =>
      obtain ⟨x, ss⟩ := xs
      obtain ⟨p, b, bs, e, hp, hb, he⟩ := S.part c x ss hc
      have hval : ∀ i, i < e → ∃ v, A.values x (p.rowPart i) = some v := by
        intro i hi
        refine mapM_exists (fun k hk => ?_)
        exact get_some_of_part hw (row_part hp hb he hi) (mem_positions.mp hk)
      refine ⟨(List.range e).map (fun i => (A.values x (p.rowPart i)).getD []), ?_⟩
      intro y tt q hy hq
      simp only [Option.some.injEq, Prod.mk.injEq] at hy
      obtain ⟨rfl, rfl⟩ := hy
      rw [part_some hp] at hq
      cases hq
      refine ⟨by simp [he], fun i v hv => ?_⟩
      rw [List.getElem?_map] at hv
      by_cases hi : i < e
      · rw [List.getElem?_range hi] at hv
        obtain ⟨u, hu⟩ := hval i hi
        simp only [Option.map_some, hu, Option.getD_some, Option.some.injEq] at hv
        rw [hu, hv]
      · rw [List.getElem?_eq_none (by simpa using hi)] at hv; cases hv
  exact ⟨⟨fun c => (key c).choose, fun _ => none⟩, fun c x ss p h1 h2 => (key c).choose_spec x ss p h1 h2, rfl⟩

/-! ### Insertion sort -/

/-- `val` inserted into `P` from the end. -/
def insertEnd (comp : List T → List T → Bool) (v : List T) (P : List (List T)) : List (List T) :=
  (List.orderedInsert (fun a b => comp a b = false) v P.reverse).reverse

theorem insertEnd_perm (comp : List T → List T → Bool) (v : List T) (P : List (List T)) : (insertEnd comp v P).Perm (v :: P) := by
  unfold insertEnd
  exact (List.reverse_perm _).trans ((List.perm_orderedInsert _ v _).trans ((List.reverse_perm P).cons v))

theorem insertEnd_length (comp : List T → List T → Bool) (v : List T) (P : List (List T)) : (insertEnd comp v P).length = P.length + 1 := by
  rw [(insertEnd_perm comp v P).length_eq]; rfl

theorem insertEnd_sorted {comp : List T → List T → Bool} (hc : StrictWeak comp) (v : List T) {P : List (List T)}
    (h : P.Pairwise (fun a b => comp b a = false)) : (insertEnd comp v P).Pairwise (fun a b => comp b a = false) := by
  unfold insertEnd
  rw [List.pairwise_reverse]
  have tot : ∀ a b, comp a b = false ∨ comp b a = false := by
    intro a b
    by_contra hh
    simp only [not_or, Bool.not_eq_false] at hh
    have := hc.trans a b a hh.1 hh.2
    rw [hc.irrefl] at this; cases this
  have tr : ∀ a b c, comp a b = false → comp b c = false → comp a c = false := by
    intro a b c h1 h2
    by_contra h3
    simp only [Bool.not_eq_false] at h3
    have h4 : comp b a = false := by
      by_contra h4
      simp only [Bool.not_eq_false] at h4
      rw [hc.trans b a c h4 h3] at h2; cases h2
    have h5 : comp c b = false := by
      by_contra h5
      simp only [Bool.not_eq_false] at h5
      rw [hc.trans a c b h3 h5] at h1; cases h1
    rw [(hc.equivTrans a b c h1 h4 h2 h5).1] at h3; cases h3
  haveI : Std.Total (fun a b => comp a b = false) := ⟨tot⟩
  haveI : IsTrans (List T) (fun a b => comp a b = false) := ⟨tr⟩
  have h' : P.reverse.Pairwise (fun a b => comp a b = false) := by rw [List.pairwise_reverse]; exact h
  exact List.Pairwise.orderedInsert v _ h'

theorem setPos_same {P : Type} (ps : Nat → Option P) (r : Nat) (p : P) : Seqs.setPos ps r p r = some p := by simp [Seqs.setPos]
theorem setPos_other {P : Type} (ps : Nat → Option P) {r r' : Nat} (h : r' ≠ r) (p : P) : Seqs.setPos ps r p r' = ps r' := by simp [Seqs.setPos, h]

theorem rowSeqs_len (len : Nat → Option Nat) (c : Nat) : (rowSeqs (T := T) len).len c = len c := rfl

theorem value_row {len : Nat → Option Nat} {ps : Nat → Option SPos} {R : Rows T} {n r i : Nat} (hn : len 0 = some n) (hr : ps r = some ⟨0, false, i⟩) (hi : i < n) :
    R.value len ps (.row r) = (R.seqs 0)[i]? := by
  simp [Rows.value, hr, Seqs.valueAt, Seqs.elem, rowSeqs_len, hn, hi, rowSeqs]

theorem assign_row {len : Nat → Option Nat} {ps : Nat → Option SPos} {R : Rows T} {n r i : Nat} (hn : len 0 = some n) (hr : ps r = some ⟨0, false, i⟩) (hi : i < n) (v : List T) :
    R.assign len ps v (.row r) = some { R with seqs := fun c' => if c' = 0 then (R.seqs 0).set i v else R.seqs c' } := by
  simp [Rows.assign, hr, Seqs.elem, rowSeqs_len, hn, hi, rowSeqs]

theorem insertLoop_run (eq lt : T → T → Bool) (comp : List T → List T → Bool) {len : Nat → Option Nat} {n : Nat} (hn : len 0 = some n) {v : List T} (k : RAlg T Bool) :
    ∀ (fuel : Nat) (P : List (List T)) (x : List T) (S : List (List T)) (ps : Nat → Option SPos) (R : Rows T), R.seqs 0 = P ++ x :: S → (P ++ x :: S).length = n →
      R.tmps 0 = some v → ps 0 = some ⟨0, false, 0⟩ → ps 2 = some ⟨0, false, P.length⟩ → P.length < fuel →
      ∃ ps' R', (insertLoop comp fuel k).run eq lt len ps R = k.run eq lt len ps' R' ∧ (∀ r, r ≠ 2 → r ≠ 3 → ps' r = ps r) ∧
        R'.seqs 0 = insertEnd comp v P ++ S ∧ R'.tmps = R.tmps := by
  intro fuel
  induction fuel with
  | zero => intro P x S ps R _ _ _ _ _ hf; omega
  | succ fuel ih =>
    intro P x S ps R hR hlen hv h0 h2 hf
    simp only [List.length_append, List.length_cons] at hlen
    have hput : R.value len ps (.tmp 0) = some v := hv
    have hset : ∀ ps : Nat → Option SPos, ps 2 = some ⟨0, false, P.length⟩ →
        R.assign len ps v (.row 2) = some { R with seqs := fun c' => if c' = 0 then P ++ v :: S else R.seqs c' } := by
      intro ps h2
      rw [assign_row hn h2 (by omega), hR]
      simp [List.set_append]
    simp only [insertLoop, RAlg.run, Seqs.both, h2, h0, Option.bind_some, and_self, if_true]
    rcases List.eq_nil_or_concat P with rfl | ⟨Q, p, rfl⟩
    · simp only [List.length_nil, decide_true, if_true, RAlg.run, hput, Option.bind_some, hset ps h2]
      exact ⟨ps, _, rfl, fun _ _ _ => rfl, by simp [insertEnd], rfl⟩
    · simp only [List.concat_eq_append] at *
      simp only [List.length_append, List.length_cons, List.length_nil] at hlen hf h2 hset ⊢
      have hm : (rowSeqs (T := T) len).moved ⟨0, false, Q.length + 1⟩ (-1) = some ⟨0, false, Q.length⟩ := by
        simp only [Seqs.moved, rowSeqs_len, hn, Option.bind_some]
        rw [if_pos (by constructor <;> push_cast <;> omega)]
        simp
      rw [decide_eq_false (by omega)]
      simp only [Bool.false_eq_true, if_false, RAlg.run, h2, Option.bind_some, setPos_same, hm]
      generalize hps : Seqs.setPos (Seqs.setPos ps 3 (⟨0, false, Q.length + 1⟩ : SPos)) 3 ⟨0, false, Q.length⟩ = ps1
      have q0 : ps1 0 = some ⟨0, false, 0⟩ := by rw [← hps, setPos_other _ (by decide), setPos_other _ (by decide), h0]
      have q2 : ps1 2 = some ⟨0, false, Q.length + 1⟩ := by rw [← hps, setPos_other _ (by decide), setPos_other _ (by decide), h2]
      have q3 : ps1 3 = some ⟨0, false, Q.length⟩ := by rw [← hps, setPos_same]
      have qr : ∀ r, r ≠ 3 → ps1 r = ps r := by intro r hr; rw [← hps, setPos_other _ hr, setPos_other _ hr]
      have v0 : R.value len ps1 (.tmp 0) = some v := hv
      have v3 : R.value len ps1 (.row 3) = some p := by
        rw [value_row hn q3 (by omega), hR]; simp
      simp only [v0, v3, Option.bind_some]
      by_cases hc : comp v p = true
      · rw [if_pos hc]
        simp only [RAlg.run, v3, Option.bind_some, assign_row hn q2 (show Q.length + 1 < n by omega), q3]
        obtain ⟨ps', R', e1, e2, e3, e4⟩ := ih Q p (p :: S) (Seqs.setPos ps1 2 ⟨0, false, Q.length⟩)
          { R with seqs := fun c' => if c' = 0 then (R.seqs 0).set (Q.length + 1) p else R.seqs c' }
          (by simp [hR, List.set_append]) (by simp; omega) hv (by rw [setPos_other _ (by decide), q0]) (setPos_same _ _ _) (by omega)
        refine ⟨ps', R', e1, fun r h1 h2 => by rw [e2 r h1 h2, setPos_other _ h1, qr r h2], ?_, e4⟩
        rw [e3]
        simp [insertEnd, hc]
      · rw [if_neg hc]
        simp only [RAlg.run, v0, Option.bind_some, hset ps1 q2]
        refine ⟨ps1, _, rfl, fun r _ h2 => qr r h2, ?_, rfl⟩
        simp [insertEnd, hc]

theorem sortLoop_run (eq lt : T → T → Bool) {comp : List T → List T → Bool} (hc : StrictWeak comp) {len : Nat → Option Nat} {n : Nat} (hn : len 0 = some n) (inner : Nat)
    (hin : n < inner) :
    ∀ (fuel : Nat) (P S : List (List T)) (ps : Nat → Option SPos) (R : Rows T), R.seqs 0 = P ++ S → (P ++ S).length = n → P.Pairwise (fun a b => comp b a = false) →
      R.tmps = (fun _ => none) → ps 0 = some ⟨0, false, 0⟩ → ps 1 = some ⟨0, false, P.length⟩ → ps 4 = some ⟨0, false, n⟩ → S.length < fuel →
      ∃ R', (sortLoop comp inner fuel).run eq lt len ps R = some (true, R') ∧ (R'.seqs 0).Perm (P ++ S) ∧ (R'.seqs 0).Pairwise (fun a b => comp b a = false) ∧
        R'.tmps = fun _ => none := by
  intro fuel
  induction fuel with
  | zero => intro P S ps R _ _ _ _ _ _ _ hf; omega
  | succ fuel ih =>
    intro P S ps R hR hlen hs ht h0 h1 h4 hf
    have hlen' := hlen
    simp only [List.length_append] at hlen
    simp only [sortLoop, RAlg.run, Seqs.both, h1, h4, Option.bind_some, and_self, if_true]
    cases S with
    | nil =>
      simp only [List.length_nil, Nat.add_zero] at hlen
      rw [decide_eq_true hlen]
      simp only [if_true, RAlg.run]
      exact ⟨R, rfl, by rw [hR], by rw [hR]; simpa using hs, ht⟩
    | cons x S =>
      simp only [List.length_cons] at hlen hf
      rw [decide_eq_false (by omega)]
      have hx : R.value len ps (.row 1) = some x := by rw [value_row hn h1 (by omega), hR]; simp
      simp only [Bool.false_eq_true, if_false, RAlg.run, hx, Option.bind_some, ht, Option.isNone_none, if_true, h1]
      obtain ⟨ps', R', e1, e2, e3, e4⟩ := insertLoop_run eq lt comp hn (v := x) (.drop 0 (.add 1 1 (sortLoop comp inner fuel))) inner P x S
        (Seqs.setPos ps 2 ⟨0, false, P.length⟩) (R.setTmp 0 (some x)) hR hlen' (by simp [Rows.setTmp]) (by rw [setPos_other _ (by decide), h0]) (setPos_same _ _ _) (by omega)
      have e1' : (insertLoop comp inner (.drop 0 (.add 1 1 (sortLoop comp inner fuel)))).run eq lt len (Seqs.setPos ps 2 ⟨0, false, P.length⟩) (R.setTmp 0 (some x)) = _ := e1
      rw [e1']
      have q1 : ps' 1 = some ⟨0, false, P.length⟩ := by rw [e2 1 (by decide) (by decide), setPos_other _ (by decide), h1]
      have hm : (rowSeqs (T := T) len).moved ⟨0, false, P.length⟩ 1 = some ⟨0, false, P.length + 1⟩ := by
        simp only [Seqs.moved, rowSeqs_len, hn, Option.bind_some]
        rw [if_pos (by constructor <;> omega)]
        simp
      have t0 : R'.tmps 0 = some x := by rw [e4]; simp [Rows.setTmp]
      simp only [RAlg.run, t0, Option.bind_some, q1, hm]
      obtain ⟨R2, f1, f2, f3, f4⟩ := ih (insertEnd comp x P) S (Seqs.setPos ps' 1 ⟨0, false, P.length + 1⟩) (R'.setTmp 0 none) e3
        (by simp [insertEnd_length]; omega) (insertEnd_sorted hc x hs) (by
          funext t
          simp only [Rows.setTmp, e4, ht]
          split <;> rfl)
        (by rw [setPos_other _ (by decide), e2 0 (by decide) (by decide), setPos_other _ (by decide), h0])
        (by rw [setPos_same, insertEnd_length]) (by rw [setPos_other _ (by decide), e2 4 (by decide) (by decide), setPos_other _ (by decide), h4]) (by omega)
      refine ⟨R2, f1, f2.trans ?_, f3, f4⟩
      refine ((insertEnd_perm comp x P).append_right S).trans ?_
      exact (List.perm_middle (l₁ := P) (l₂ := S) (a := x)).symm

/-- **C92, an instance.** Insertion sort through iterators and temporaries sorts the rows of any array, subarray or view of two or more dimensions by any strict weak order of
rows: afterwards its rows are a sorted permutation of the rows before, no temporary is left, and nothing else has changed. -/
theorem C92_insertion_sort (dbg : Bool) (dflt : T) (eq lt : T → T → Bool) (alloc : Nat) {comp : List T → List T → Bool} (hc : StrictWeak comp) {w : World T} {A : AState T}
    (hw : w.Rep A) {x : Nat} {ss : List Sel} {p : APart} (hp : A.Part x ss p) {b : Int} {bs : List Int} {e : Nat} {es : List Nat} (hb : p.bases = b :: bs)
    (he : p.extents = e :: es) (hes : es ≠ []) {y : Nat} (hy : ∀ t, A (y + t) = none) {fuel : Nat} (hf : e < fuel) :
    ∃ (w' : World T) (A' : AState T) (rows rows' : List (List T)), (insertionSort comp fuel).exec dbg dflt eq lt (fun c => if c = 0 then some (x, ss) else none) (fun t => y + t) alloc (fun _ => none) w = some (true, w') ∧
      w'.Rep A' ∧ rows.length = e ∧ (∀ i v, rows[i]? = some v → A.values x (p.rowPart i) = some v) ∧
      (∀ i v, rows'[i]? = some v → A'.values x (p.rowPart i) = some v) ∧ rows'.Perm rows ∧ rows'.Pairwise (fun r r' => comp r' r = false) ∧
      (∀ t, A' (y + t) = none) ∧ (∀ z, A'.header z = A.header z) ∧
      ∀ z idx, A.InRange z idx → (z = x → ∀ i, InBox p.bases p.extents i → p.root i ≠ idx) → A'.get z idx = A.get z idx := by
  have S : RowSetup A (fun c => if c = 0 then some (x, ss) else none) (fun t => y + t) es := by
    refine ⟨hes, ?_, ?_, hy, fun t t' h => by simpa using h⟩
    · intro c x' ss' h
      split at h
      · cases h; exact ⟨p, b, bs, e, hp, hb, he⟩
      · cases h
    · intro c c' x' s1 s2 p1 p2 hne h1 h2
      split at h1
      · split at h2
        · omega
        · cases h2
      · cases h1
  obtain ⟨R, hR, hT⟩ := C92_rows_exist hw S
  have hpp := part_some hp
  have hcnt : A.rowCount (fun c => if c = 0 then some (x, ss) else none) 0 = some e := by simp [AState.rowCount, hpp, he]
  obtain ⟨hl, hrows⟩ := hR 0 x ss p (by simp) hpp
  rw [he] at hl
  have hl : (R.seqs 0).length = e := hl
  obtain ⟨R', f1, f2, f3, f4⟩ := sortLoop_run eq lt hc hcnt fuel hf fuel [] (R.seqs 0)
    (Seqs.setPos (Seqs.setPos (Seqs.setPos (fun _ => none) 0 ⟨0, false, 0⟩) 1 ⟨0, false, 0⟩) 4 ⟨0, false, e⟩) R rfl (by simpa using hl) List.Pairwise.nil hT
    rfl rfl rfl (by omega)
  obtain ⟨w', A', g1, g2, g3, g4, g5⟩ := C92_algorithms_on_rows dbg dflt eq lt alloc hw S hR hT (insertionSort comp fuel) (a := true) (R' := R') (by
    simp only [insertionSort, RAlg.run, hcnt, Option.bind_some]
    exact f1)
  have hdead : ∀ t, A' (y + t) = none := by
    intro t
    have := g5 t
    rw [f4] at this
    exact this
  have hhead : ∀ z, A'.header z = A.header z := by
    intro z
    by_cases hz : ∃ t, z = y + t
    · obtain ⟨t, rfl⟩ := hz
      simp [AState.header, hdead, hy]
    · exact g4.1 z (fun t ht => hz ⟨t, ht⟩)
  refine ⟨w', A', R.seqs 0, R'.seqs 0, g1, g2, hl, hrows, ?_, by simpa using f2, f3, hdead, hhead, ?_⟩
  · exact (g3 0 x ss p (by simp) ((part_of_header (hhead x) ss).trans hpp)).2
  · intro z idx hin hz
    refine g4.2 z idx hin (fun c ss' p' h1 h2 i hi => ?_)
    simp only at h1
    split at h1
    · cases h1
      rw [hpp] at h2
      cases h2
      exact hz rfl i hi
    · cases h1

/-! ### A state that meets the hypotheses -/

theorem rowsSetup_rep : ∃ (w : World Nat) (A : AState Nat), w.Rep A ∧
    A 1 = some ⟨[1, 0], [3, 2], StorageOrder.fortranOrder 2, [10, 20, 30, 40, 50, 60]⟩ ∧ ∀ t, A (2 + t) = none := by
  obtain ⟨os, A, w, e1, _, e3⟩ := execAll_refines true 0 (fun a b => a == b) (fun a b => decide (a < b)) exchangeSetup start_rep exchangeSetup_legal
  have hA : AState.run 0 (fun a b => a == b) (fun a b => decide (a < b)) exchangeSetup noVars = some (os, A) := e1
  refine ⟨w, A, e3, ?_⟩
  simp [exchangeSetup, AState.run, AState.step, CInit.value, AState.set, noVars, AbsArr.step] at hA
  obtain ⟨_, rfl⟩ := hA
  refine ⟨rfl, fun t => ?_⟩
  have h0 : ¬ 2 + t = 0 := by omega
  have h1 : ¬ 2 + t = 1 := by omega
  rw [AState.set_other _ h1, AState.set_other _ h1, AState.set_other _ h0, AState.set_other _ h0]
  rfl

/-- `[indices[range(3,0,-1)][range(0,2)]]` -/
def backRows : List Sel := [.view [.range (IndexRange.mk3 3 0 (-1)), .range (IndexRange.mk3 0 2 1)]]

theorem backRows_legal (p : APart) (hb : p.bases = [1, 0]) (he : p.extents = [3, 2]) : p.LegalPath backRows := by
  refine ⟨⟨by simp, ?_, ?_, ?_, ?_⟩, trivial⟩
  · rw [hb, he]; show LegalRanges [1, 0] [3, 2] ([IndexArg.range (IndexRange.mk3 3 0 (-1)), .range (IndexRange.mk3 0 2 1)].map IndexArg.toRange); decide
  · rw [hb, he]; show NoOverrun [1, 0] [3, 2] ([IndexArg.range (IndexRange.mk3 3 0 (-1)), .range (IndexRange.mk3 0 2 1)].map IndexArg.toRange); decide
  · intro r hr; simp at hr; rcases hr with rfl | rfl <;> rfl
  · intro i hi; simp at hi

/-- Compare rows by their last elements. -/
def byLast (u v : List Nat) : Bool := decide (u.getLastD 0 < v.getLastD 0)

theorem byLast_order : StrictWeak byLast :=
  ⟨fun x => by simp [byLast], fun x y z h1 h2 => by simp only [byLast, decide_eq_true_eq] at *; omega,
    fun x y z h1 h2 h3 h4 => by simp only [byLast, decide_eq_false_iff_not] at *; omega⟩

/-- The hypotheses hold for `b(extents[range(1,4)][2], fortran_storage_order())` and the rows of `b` backwards, a view, sorted by their last elements. -/
example : ∃ (w : World Nat) (A : AState Nat) (w' : World Nat), w.Rep A ∧
    (insertionSort byLast 4).exec true 0 (fun a b => a == b) (fun a b => decide (a < b))
      (fun c => if c = 0 then some (1, backRows) else none) (fun t => 2 + t) 0 (fun _ => none) w = some (true, w') := by
  obtain ⟨w, A, h, h1, h2⟩ := rowsSetup_rep
  obtain ⟨w', A', rows, rows', e1, _⟩ := C92_insertion_sort true 0 (fun a b => a == b) (fun a b => decide (a < b)) 0 byLast_order h
    (x := 1) (ss := backRows) ⟨_, h1, backRows_legal _ rfl rfl, rfl⟩ (b := 0) (bs := [0]) (e := 3) (es := [2]) (by decide) (by decide) (by decide) h2 (fuel := 4) (by decide)
  exact ⟨w, A, w', h, e1⟩

/-- The library's run: `b` holds the rows `{10,40}, {20,50}, {30,60}`; sorting its rows backwards leaves `{30,60}, {20,50}, {10,40}`. -/
example : ((World.execAll true 0 (fun a b => a == b) (fun a b => decide (a < b)) exchangeSetup (World.start [])).bind (fun r =>
      (insertionSort byLast 4).exec true 0 (fun a b => a == b) (fun a b => decide (a < b))
        (fun c => if c = 0 then some (1, backRows) else none) (fun t => 2 + t) 0 (fun _ => none) r.2)).bind (fun r =>
      (World.execAll true 0 (fun a b => a == b) (fun a b => decide (a < b)) [.traverse 0 [], .traverse 1 []] r.2).map (fun q => (r.1, q.1))) =
    some (true, [.values [1, 2, 3, 4, 5, 6], .values [30, 60, 20, 50, 10, 40]]) := by
  decide +kernel

end MultiArray.Props
