import Verif.SpecRows
import Verif.Lemmas.Seq
import Verif.Lemmas.Share
import Verif.Lemmas.Stable
import Verif.Props.Exchange

/- Iterator algorithms on the rows of arrays behave as on plain lists of rows. -/
set_option autoImplicit false

namespace MultiArray
open Spec Props
variable {T α : Type}

/-! ### Values of parts -/

theorem values_congr {A A' : AState T} {x y : Nat} {p q : APart} (he : p.extents = q.extents)
    (h : ∀ k, InShape p.extents k → A'.get x (p.root (atPos p.bases k)) = A.get y (q.root (atPos q.bases k))) : A'.values x p = A.values y q := by
  unfold AState.values
  rw [← he]
  have : ∀ l : List (List Nat), (∀ k ∈ l, InShape p.extents k) →
      l.mapM (fun k => A'.get x (p.root (atPos p.bases k))) = l.mapM (fun k => A.get y (q.root (atPos q.bases k))) := by
    intro l hl
    induction l with
    | nil => rfl
    | cons k l ih =>
      simp only [List.mapM_cons]
      rw [h k (hl k (by simp)), ih (fun k hk => hl k (by simp [hk]))]
  exact this _ (fun k hk => mem_positions.mp hk)

theorem mapM_getD {β γ : Type} (dflt : γ) {f : β → Option γ} {l : List β} {v : List γ} (h : l.mapM f = some v) : v = l.map (fun k => (f k).getD dflt) := by
  induction l generalizing v with
  | nil => simp at h; subst h; rfl
  | cons k l ih =>
    simp only [List.mapM_cons] at h
    cases hk : f k with
    | none => rw [hk] at h; cases h
    | some x =>
      cases hl : l.mapM f with
      | none => rw [hk, hl] at h; cases h
      | some xs =>
        rw [hk, hl] at h
        cases h
        rw [List.map_cons, hk, ← ih hl]
        rfl

theorem all_rowEqual {β : Type} (eq : T → T → Bool) {f g : β → Option T} {l : List β} {v v' : List T} (h : l.mapM f = some v) (h' : l.mapM g = some v') :
    l.all (fun k => match f k, g k with | some x, some y => eq x y | _, _ => false) = rowEqual eq v v' := by
  induction l generalizing v v' with
  | nil => simp at h h'; subst h; subst h'; rfl
  | cons k l ih =>
    simp only [List.mapM_cons] at h h'
    cases hk : f k with
    | none => rw [hk] at h; cases h
    | some x =>
      cases hl : l.mapM f with
      | none => rw [hk, hl] at h; cases h
      | some xs =>
        cases hk' : g k with
        | none => rw [hk'] at h'; cases h'
        | some y =>
          cases hl' : l.mapM g with
          | none => rw [hk', hl'] at h'; cases h'
          | some ys =>
            rw [hk, hl] at h
            rw [hk', hl'] at h'
            cases h; cases h'
            simp only [List.all_cons, hk, hk']
            rw [ih hl hl']
            rfl

/-! ### Comparison of nested values and of flat lists -/

theorem rowLess_append (lt : T → T → Bool) {a b : List T} (h : a.length = b.length) (as bs : List T) :
    rowLess lt (a ++ as) (b ++ bs) = (rowLess lt a b || (!rowLess lt b a && rowLess lt as bs)) := by
  induction a generalizing b with
  | nil =>
    cases b with
    | nil => simp [rowLess]
    | cons => simp at h
  | cons x a ih =>
    cases b with
    | nil => simp at h
    | cons y b =>
      simp only [List.cons_append, rowLess]
      rw [ih (by simpa using h)]
      cases lt x y <;> cases lt y x <;> simp

theorem lexVal_flat (lt : T → T → Bool) (es : List Nat) (f g : List Nat → T) :
    lexVal lt es.length (nested es.length es f) (nested es.length es g) = rowLess lt ((positions es).map f) ((positions es).map g) := by
  induction es generalizing f g with
  | nil =>
    simp only [positions, List.map_cons, List.map_nil, List.length_nil, rowLess, Bool.and_false, Bool.or_false]
    rfl
  | cons e es ih =>
    have : ∀ l : List Nat, lexList (lexVal lt es.length) (l.map (fun x => nested es.length es (fun k => f (x :: k)))) (l.map (fun x => nested es.length es (fun k => g (x :: k)))) =
        rowLess lt ((l.flatMap (fun k => (positions es).map (k :: ·))).map f) ((l.flatMap (fun k => (positions es).map (k :: ·))).map g) := by
      intro l
      induction l with
      | nil => rfl
      | cons x l ihl =>
        simp only [List.map_cons, List.flatMap_cons, List.map_append, lexList]
        rw [rowLess_append lt (by simp)]
        rw [ihl, ih (fun k => f (x :: k)) (fun k => g (x :: k)), ih (fun k => g (x :: k)) (fun k => f (x :: k))]
        simp only [List.map_map, Function.comp_def]
        split <;> rename_i h1
        · rw [h1]; rfl
        · rw [Bool.not_eq_true] at h1
          rw [h1]
          split <;> rename_i h2
          · rw [h2]; rfl
          · rw [Bool.not_eq_true] at h2
            rw [h2]; simp
    exact this (List.range e)

open Classical in
theorem less_flat (lt : T → T → Bool) (dflt : T) {A : AState T} {x y : Nat} {p q : APart} {es : List Nat} (hp : p.extents = es) (hq : q.extents = es) {v v' : List T}
    (h : A.values x p = some v) (h' : A.values y q = some v') :
    decide (ValLess lt es.length (A.nestedValue dflt x p es.length) (A.nestedValue dflt y q es.length)) = rowLess lt v v' := by
  unfold AState.values at h h'
  unfold AState.nestedValue
  rw [hp] at h ⊢
  rw [hq] at h' ⊢
  rw [mapM_getD dflt h, mapM_getD dflt h', ← lexVal_flat, Bool.eq_iff_iff, decide_eq_true_iff, lexVal_iff]

/-! ### Iterators -/

theorem toIt_deref_any (dbg : Bool) (e : Nat) (b : Int) (d : Desc) (sp : SPos) (h : sp.i < e) :
    (toIt e b d sp).deref dbg = access dbg (b + ((if sp.rev then e - 1 - sp.i else sp.i : Nat) : Int)) d := by
  unfold toIt
  cases hr : sp.rev with
  | false => rfl
  | true =>
    have hx : b + ((e : Int) - (sp.i : Int)) - 1 = b + ((e - 1 - sp.i : Nat) : Int) := by omega
    rw [if_pos rfl, if_pos rfl]
    show It.deref dbg ⟨b + ((e : Int) - (sp.i : Int)) - 1, d⟩ = _
    rw [hx]
    rfl

theorem resolve_append (dbg : Bool) (ss ss' : List Sel) (d : Desc) : resolve dbg (ss ++ ss') d = (do resolve dbg ss' (← resolve dbg ss d)) := by
  induction ss generalizing d with
  | nil => rfl
  | cons s ss ih =>
    cases s with
    | «at» i =>
      simp only [List.cons_append, resolve]
      cases h : d.bracket dbg i with
      | ok d1 => simp only [Res.bind_ok]; exact ih d1
      | assertFail => rfl
      | ub => rfl
    | view xs =>
      simp only [List.cons_append, resolve]
      cases h : chainIndices IndexGen.empty xs with
      | assertFail => rfl
      | ub => rfl
      | ok g =>
        simp only [Res.bind_ok]
        cases h : d.slice dbg g with
        | ok v => simp only [Res.bind_ok]; exact ih v.desc
        | assertFail => rfl
        | ub => rfl
    | viewFrom xs bs =>
      simp only [List.cons_append, resolve]
      cases h : chainIndices IndexGen.empty xs with
      | assertFail => rfl
      | ub => rfl
      | ok g =>
        simp only [Res.bind_ok]
        cases h : d.slice dbg g with
        | assertFail => rfl
        | ub => rfl
        | ok v =>
          simp only [Res.bind_ok]
          cases h : v.reindexList bs with
          | ok v1 => simp only [Res.bind_ok]; exact ih v1.desc
          | assertFail => rfl
          | ub => rfl

theorem lookup_row (dbg : Bool) {w : World T} {x : Nat} {ss : List Sel} {d : Desc} (h : w.lookup dbg x ss = some d) (j : Int) :
    w.lookup dbg x (ss ++ [.at j]) = Res.val? (access dbg j d) := by
  unfold World.lookup at h ⊢
  cases hx : w.objs x with
  | none => rw [hx] at h; cases h
  | some a =>
    rw [hx] at h
    simp only [Option.bind_some] at h ⊢
    rw [resolve_append]
    cases hr : resolve dbg ss a.ref.desc with
    | assertFail => rw [hr] at h; cases h
    | ub => rw [hr] at h; cases h
    | ok d' =>
      rw [hr] at h
      cases h
      simp only [Res.bind_ok, resolve]
      show Res.val? (do let r ← access dbg j d; .ok r) = _
      cases access dbg j d <;> rfl

/-! ### The invariant -/

/-- A row or a temporary. -/
inductive Plc where
  | row (c i : Nat)
  | tmp (t : Nat)

variable {A0 : AState T} {seqs : Nat → Option (Nat × List Sel)} {free : Nat → Nat} {es : List Nat}

/-- The header of a temporary: that of a row of some sequence, in C order. -/
def RowLike (A0 : AState T) (seqs : Nat → Option (Nat × List Sel)) (a : AbsArr T) : Prop :=
  ∃ c y s0 p, seqs c = some (y, s0) ∧ A0.Part y s0 p ∧ a.bases = p.bases.tail ∧ a.extents = p.extents.tail ∧ a.order = StorageOrder.cOrder a.extents.length

theorem RowLike.congr {A0 : AState T} {seqs : Nat → Option (Nat × List Sel)} {a a' : AbsArr T} (h : RowLike A0 seqs a) (h1 : a'.bases = a.bases)
    (h2 : a'.extents = a.extents) (h3 : a'.order = a.order) : RowLike A0 seqs a' := by
  obtain ⟨c, y, s0, p, g1, g2, g3, g4, g5⟩ := h
  exact ⟨c, y, s0, p, g1, g2, h1.trans g3, h2.trans g4, by rw [h3, g5, h2]⟩

/-- The state of the program `w`, of its abstract variables `A`, and the plain lists `R`. -/
structure RowInv (dbg : Bool) (A0 : AState T) (seqs : Nat → Option (Nat × List Sel)) (free : Nat → Nat) (es : List Nat) (D : Nat → Option Desc)
    (w : World T) (A : AState T) (R : Rows T) : Prop where
  rep : w.Rep A
  heads : ∀ c x ss, seqs c = some (x, ss) → w.lookup dbg x ss = D c
  rows : A.HoldsRows seqs R
  dead : ∀ t, R.tmps t = none → A (free t) = none
  live : ∀ t v, R.tmps t = some v → ∃ a, A (free t) = some a ∧ a.extents = es ∧ A.values (free t) a.whole = some v
  only : AState.OnlyRows A0 A seqs free
  like : ∀ t a, A (free t) = some a → RowLike A0 seqs a

/-- Where a place is. -/
def PlcAt (A0 A : AState T) (seqs : Nat → Option (Nat × List Sel)) (free : Nat → Nat) : Plc → Nat → List Sel → APart → Prop
  | .row c i, y, ss, q => ∃ s0 p, seqs c = some (y, s0) ∧ A0.Part y s0 p ∧ i < p.extents.headD 0 ∧ ss = s0 ++ [.at (p.bases.headD 0 + (i : Int))] ∧ q = p.rowPart i
  | .tmp t, y, ss, q => y = free t ∧ ss = [] ∧ ∃ a, A (free t) = some a ∧ q = a.whole

/-- The place of an argument. -/
def argPlc (len : Nat → Option Nat) (ps : Nat → Option SPos) : RowArg → Option Plc
  | .row r => (ps r).bind (fun p => ((rowSeqs (T := T) len).elem p).map (fun i => .row p.seq i))
  | .tmp t => some (.tmp t)

theorem Spec.RowSetup.ne_free (S : RowSetup A0 seqs free es) {c x : Nat} {ss : List Sel} (h : seqs c = some (x, ss)) (t : Nat) : x ≠ free t := by
  obtain ⟨p, b, bs, e, ⟨a, ha, _⟩, _⟩ := S.part c x ss h
  rintro rfl
  rw [S.fresh] at ha; cases ha

theorem part_some {A : AState T} {x : Nat} {ss : List Sel} {p : APart} (h : A.Part x ss p) : A.part x ss = some p := by
  obtain ⟨a, hA, _, rfl⟩ := h; simp [AState.part, hA]

theorem part_of_header {A A' : AState T} {x : Nat} (h : A'.header x = A.header x) (ss : List Sel) : A'.part x ss = A.part x ss := by
  simp only [AState.header] at h
  unfold AState.part
  cases hA : A x with
  | none => rw [hA] at h; cases hA' : A' x with
    | none => rfl
    | some a => rw [hA'] at h; cases h
  | some a =>
    rw [hA] at h
    cases hA' : A' x with
    | none => rw [hA'] at h; cases h
    | some a' =>
      rw [hA'] at h
      simp only [Option.map_some, Option.some.injEq, Prod.mk.injEq] at h
      simp [AbsArr.whole, h.1, h.2.1]

theorem row_part {A : AState T} {x : Nat} {s0 : List Sel} {p : APart} (h : A.Part x s0 p) {b : Int} {bs : List Int} {e : Nat} (hb : p.bases = b :: bs)
    (he : p.extents = e :: es) {i : Nat} (hi : i < e) : A.Part x (s0 ++ [.at (p.bases.headD 0 + (i : Int))]) (p.rowPart i) := by
  obtain ⟨a, hA, hl, rfl⟩ := h
  refine ⟨a, hA, ?_, ?_⟩
  · have : ∀ (q : APart) (ss ss' : List Sel), q.LegalPath ss → (q.path ss).LegalPath ss' → q.LegalPath (ss ++ ss') := by
      intro q ss
      induction ss generalizing q with
      | nil => intro ss' _ h; exact h
      | cons s ss ih => intro ss' h1 h2; exact ⟨h1.1, ih _ ss' h1.2 h2⟩
    refine this _ _ _ hl ⟨⟨b, bs, e, es, hb, he, ?_, ?_⟩, trivial⟩
    · rw [hb]; simp
    · rw [hb]; simp; omega
  · rw [APart.path_append]; rfl

/-- The parts at places. -/
theorem PlcAt.part {dbg : Bool} {D : Nat → Option Desc} {w : World T} {A : AState T} {R : Rows T} (S : RowSetup A0 seqs free es)
    (h : RowInv dbg A0 seqs free es D w A R) {pl : Plc} {y : Nat} {ss : List Sel} {q : APart} (hp : PlcAt A0 A seqs free pl y ss q)
    (ht : ∀ t, pl = .tmp t → R.tmps t ≠ none) : A.Part y ss q ∧ q.extents = es := by
  cases pl with
  | row c i =>
    obtain ⟨s0, p, h1, h2, h3, rfl, rfl⟩ := hp
    obtain ⟨p', b, bs, e, g1, g2, g3⟩ := S.part c y s0 h1
    have : p' = p := by have a1 := part_some g1; rw [part_some h2] at a1; exact (Option.some.inj a1).symm
    subst this
    rw [g3] at h3
    refine ⟨part_header (h.only.1 y (S.ne_free h1)) (row_part g1 g2 g3 h3), ?_⟩
    simp [APart.rowPart, APart.sel, g3]
  | tmp t =>
    obtain ⟨rfl, rfl, a, h1, rfl⟩ := hp
    cases hv : R.tmps t with
    | none => exact absurd hv (ht t rfl)
    | some v =>
      obtain ⟨a', g1, g2, _⟩ := h.live t v hv
      rw [h1] at g1; cases g1
      exact ⟨⟨a, h1, trivial, rfl⟩, g2⟩

theorem PlcAt.same {A : AState T} {pl : Plc} {y y' : Nat} {ss ss' : List Sel} {q q' : APart} (h : PlcAt A0 A seqs free pl y ss q)
    (h' : PlcAt A0 A seqs free pl y' ss' q') : y = y' ∧ ss = ss' ∧ q = q' := by
  cases pl with
  | row c i =>
    obtain ⟨s0, p, h1, h2, h3, rfl, rfl⟩ := h
    obtain ⟨s0', p', h1', h2', h3', rfl, rfl⟩ := h'
    rw [h1] at h1'
    simp only [Option.some.injEq, Prod.mk.injEq] at h1'
    obtain ⟨rfl, rfl⟩ := h1'
    have a1 := part_some h2
    rw [part_some h2'] at a1
    cases a1
    exact ⟨rfl, rfl, rfl⟩
  | tmp t =>
    obtain ⟨rfl, rfl, a, h1, rfl⟩ := h
    obtain ⟨rfl, rfl, a', h1', rfl⟩ := h'
    rw [h1] at h1'; cases h1'
    exact ⟨rfl, rfl, rfl⟩

theorem rowPart_root (p : APart) (i : Nat) (idx : List Int) : (p.rowPart i).root idx = p.root ((p.bases.headD 0 + (i : Int)) :: idx) := rfl

theorem rowPart_inBox {p : APart} {b : Int} {bs : List Int} {e : Nat} (hb : p.bases = b :: bs) (he : p.extents = e :: es) {i : Nat} (hi : i < e) {idx : List Int}
    (h : InBox (p.rowPart i).bases (p.rowPart i).extents idx) : InBox p.bases p.extents ((p.bases.headD 0 + (i : Int)) :: idx) := by
  simp only [APart.rowPart, APart.sel, hb, he, List.tail_cons, List.headD_cons] at h ⊢
  exact ⟨by omega, by omega, h⟩

/-- Different places have no common elements. -/
theorem PlcAt.apart {dbg : Bool} {D : Nat → Option Desc} {w : World T} {A : AState T} {R : Rows T} (S : RowSetup A0 seqs free es)
    (h : RowInv dbg A0 seqs free es D w A R) {pl pl' : Plc} {y : Nat} {ss ss' : List Sel} {q q' : APart} (hne : pl ≠ pl') (hp : PlcAt A0 A seqs free pl y ss q)
    (hp' : PlcAt A0 A seqs free pl' y ss' q') : q.Disjoint q' := by
  cases pl with
  | row c i =>
    obtain ⟨s0, p, h1, h2, h3, rfl, rfl⟩ := hp
    obtain ⟨p0, b, bs, e, g1, g2, g3⟩ := S.part c y s0 h1
    have : p0 = p := by have a1 := part_some g1; rw [part_some h2] at a1; exact (Option.some.inj a1).symm
    subst this
    rw [g3] at h3
    cases pl' with
    | row c' i' =>
      obtain ⟨s0', p', h1', h2', h3', rfl, rfl⟩ := hp'
      obtain ⟨p0', b', bs', e', g1', g2', g3'⟩ := S.part c' y s0' h1'
      have : p0' = p' := by have a1 := part_some g1'; rw [part_some h2'] at a1; exact (Option.some.inj a1).symm
      subst this
      rw [g3'] at h3'
      intro u v hu hv
      rw [rowPart_root, rowPart_root]
      have hu := rowPart_inBox g2 g3 h3 hu
      have hv := rowPart_inBox g2' g3' h3' hv
      by_cases hc : c = c'
      · subst hc
        rw [h1] at h1'
        simp only [Option.some.injEq, Prod.mk.injEq, true_and] at h1'
        subst h1'
        have a1 := part_some g1
        rw [part_some g1'] at a1
        cases a1
        have hA := part_header (h.only.1 y (S.ne_free h1)) g1
        obtain ⟨a, ha, _⟩ := id hA
        intro hE
        have := (h.rep.goodPart ha hA).inj _ _ hu hv hE
        simp only [List.cons.injEq] at this
        exact hne (by rw [show i = i' by omega])
      · exact S.apart c c' y s0 s0' p0 p0' hc h1 h1' g1 g1' _ _ hu hv
    | tmp t =>
      obtain ⟨h1', _⟩ := hp'
      exact absurd h1' (S.ne_free h1 t)
  | tmp t =>
    obtain ⟨rfl, rfl, a, g1, rfl⟩ := hp
    cases pl' with
    | row c' i' =>
      obtain ⟨s0', p', h1', _⟩ := hp'
      exact absurd rfl (S.ne_free h1' t)
    | tmp t' =>
      obtain ⟨h1', _⟩ := hp'
      exact absurd (by rw [S.inj _ _ h1']) hne

/-- The iterator variables hold the iterators for the positions. -/
def RowRegs (D : Nat → Option Desc) (len : Nat → Option Nat) (ps : Nat → Option SPos) (its : Nat → Option AnyIt) : Prop :=
  ∀ r sp, ps r = some sp → ∃ e d, len sp.seq = some e ∧ D sp.seq = some d ∧ sp.i ≤ e ∧ its r = some (toIt e (d.bases.headD 0) d sp)

theorem RowRegs.set {D : Nat → Option Desc} {len : Nat → Option Nat} {ps : Nat → Option SPos} {its : Nat → Option AnyIt} (h : RowRegs D len ps its) (r : Nat)
    {sp : SPos} {it : AnyIt} {e : Nat} {d : Desc} (h1 : len sp.seq = some e) (h2 : D sp.seq = some d) (h3 : sp.i ≤ e) (h4 : it = toIt e (d.bases.headD 0) d sp) :
    RowRegs D len (Seqs.setPos ps r sp) (Seqs.setPos its r it) := by
  intro r' sp' hr
  unfold Seqs.setPos at hr ⊢
  by_cases hx : r' = r
  · rw [if_pos hx] at hr ⊢
    cases hr
    exact ⟨e, d, h1, h2, h3, by rw [h4]⟩
  · rw [if_neg hx] at hr ⊢
    exact h r' sp' hr

/-- What is known about a sequence. -/
theorem RowInv.seq {dbg : Bool} {D : Nat → Option Desc} {w : World T} {A : AState T} {R : Rows T} (S : RowSetup A0 seqs free es)
    (h : RowInv dbg A0 seqs free es D w A R) {c e : Nat} (hc : A0.rowCount seqs c = some e) :
    ∃ x ss p b bs d, seqs c = some (x, ss) ∧ A0.Part x ss p ∧ A.Part x ss p ∧ p.bases = b :: bs ∧ p.extents = e :: es ∧ w.lookup dbg x ss = some d ∧ D c = some d ∧
      d.bases = b :: bs ∧ d.extents = e :: es ∧ (R.seqs c).length = e := by
  unfold AState.rowCount at hc
  cases hs : seqs c with
  | none => rw [hs] at hc; cases hc
  | some xs =>
    obtain ⟨x, ss⟩ := xs
    obtain ⟨p, b, bs, e', g1, g2, g3⟩ := S.part c x ss hs
    rw [hs] at hc
    simp only [Option.bind_some, part_some g1, Option.map_some, g3, List.headD_cons, Option.some.injEq] at hc
    subst hc
    have hA := part_header (h.only.1 x (S.ne_free hs)) g1
    obtain ⟨m, d, j1, j2, j3, j4⟩ := h.rep.partOf dbg hA
    refine ⟨x, ss, p, b, bs, d, rfl, g1, hA, g2, g3, j2, by rw [← h.heads c x ss hs, j2], by rw [j3.bases, g2], by rw [j3.extents, g3], ?_⟩
    rw [(h.rows c x ss p hs j4).1, g3]
    rfl

/-- What is known about an argument that has a value. -/
theorem RowInv.arg {dbg : Bool} {D : Nat → Option Desc} {w : World T} {A : AState T} {R : Rows T} (S : RowSetup A0 seqs free es)
    (h : RowInv dbg A0 seqs free es D w A R) {ps : Nat → Option SPos} {its : Nat → Option AnyIt} (hr : RowRegs D (A0.rowCount seqs) ps its) {s : RowArg} {v : List T}
    (hv : R.value (A0.rowCount seqs) ps s = some v) :
    ∃ pl y ss q d, argPlc (T := T) (A0.rowCount seqs) ps s = some pl ∧ PlcAt A0 A seqs free pl y ss q ∧ A.Part y ss q ∧ q.extents = es ∧
      w.lookup dbg y ss = some d ∧ s.desc dbg free its w = some d ∧ d.extents = es ∧ A.values y q = some v := by
  have fin : ∀ pl y ss q, argPlc (T := T) (A0.rowCount seqs) ps s = some pl → PlcAt A0 A seqs free pl y ss q → (∀ t, pl = .tmp t → R.tmps t ≠ none) →
      (∀ d, w.lookup dbg y ss = some d → s.desc dbg free its w = some d) → A.values y q = some v →
      ∃ pl y ss q d, argPlc (T := T) (A0.rowCount seqs) ps s = some pl ∧ PlcAt A0 A seqs free pl y ss q ∧ A.Part y ss q ∧ q.extents = es ∧
        w.lookup dbg y ss = some d ∧ s.desc dbg free its w = some d ∧ d.extents = es ∧ A.values y q = some v := by
    intro pl y ss q h1 h2 h3 h4 h5
    obtain ⟨g1, g2⟩ := h2.part S h h3
    obtain ⟨m, d, j1, j2, j3, j4⟩ := h.rep.partOf dbg g1
    exact ⟨pl, y, ss, q, d, h1, h2, g1, g2, j2, h4 d j2, by rw [j3.extents, g2], h5⟩
  cases s with
  | row r =>
    simp only [Rows.value] at hv
    cases hp : ps r with
    | none => rw [hp] at hv; cases hv
    | some sp =>
      rw [hp] at hv
      simp only [Option.bind_some, Seqs.valueAt] at hv
      obtain ⟨e, d, h1, h2, h3, h4⟩ := hr r sp hp
      cases hi : (rowSeqs (T := T) (A0.rowCount seqs)).elem sp with
      | none => rw [hi] at hv; cases hv
      | some i =>
        rw [hi] at hv
        obtain ⟨a1, a2, a3⟩ := elem_some h1 hi
        obtain ⟨x, ss, p, b, bs, d', g1, g2, g3, g4, g5, g6, g7, g8, g9, g10⟩ := h.seq S h1
        rw [h2] at g7; cases g7
        refine fin (.row sp.seq i) x (ss ++ [.at (p.bases.headD 0 + (i : Int))]) (p.rowPart i) (by simp [argPlc, hp, hi])
          ⟨ss, p, g1, g2, by rw [g5]; exact a3, rfl, rfl⟩ (fun t ht => by cases ht) ?_ ((h.rows _ x ss p g1 (part_some g3)).2 i v hv)
        intro d1 hd1
        rw [lookup_row dbg g6] at hd1
        simp only [RowArg.desc, h4, Option.bind_some, optRes]
        rw [toIt_deref_any dbg e _ d sp a1, ← a2, ← hd1, g8, g4]
  | tmp t =>
    have hv : R.tmps t = some v := hv
    obtain ⟨a, g1, g2, g3⟩ := h.live t v hv
    refine fin (.tmp t) (free t) [] a.whole rfl ⟨rfl, rfl, a, g1, rfl⟩ (fun t' ht => by cases ht; rw [hv]; simp) ?_ g3
    intro d hd
    unfold World.lookup at hd
    cases hx : w.objs (free t) with
    | none => rw [hx] at hd; cases hd
    | some m => rw [hx] at hd; cases hd; simp [RowArg.desc, hx]

/-- A step that changes a temporary only. -/
theorem RowInv.tmp {dbg : Bool} {D : Nat → Option Desc} {w w' : World T} {A A' : AState T} {R : Rows T} (S : RowSetup A0 seqs free es)
    (h : RowInv dbg A0 seqs free es D w A R) {t : Nat} {v : Option (List T)} (hr : w'.Rep A') (ho : ∀ z, z ≠ free t → A' z = A z)
    (hobjs : ∀ z, z ≠ free t → w'.objs z = w.objs z) (hn : v = none → A' (free t) = none)
    (hs : ∀ u, v = some u → ∃ a, A' (free t) = some a ∧ a.extents = es ∧ A'.values (free t) a.whole = some u)
    (hlike : ∀ a, A' (free t) = some a → RowLike A0 seqs a) : RowInv dbg A0 seqs free es D w' A' (R.setTmp t v) := by
  have hne : ∀ {t'}, t' ≠ t → free t' ≠ free t := fun hh e => hh (S.inj _ _ e)
  have hval : ∀ z p, z ≠ free t → A'.values z p = A.values z p := fun z p hz => values_congr rfl (fun k _ => get_of_eq (ho z hz) _)
  constructor
  · exact hr
  · intro c x ss hc
    rw [← h.heads c x ss hc]
    unfold World.lookup
    rw [hobjs x (S.ne_free hc t)]
  · intro c x ss p hc hp
    have hx := S.ne_free hc t
    rw [part_of_header (header_of_eq (ho x hx))] at hp
    refine ⟨(h.rows c x ss p hc hp).1, fun i v hv => ?_⟩
    rw [hval x _ hx]
    exact (h.rows c x ss p hc hp).2 i v hv
  · intro t' ht'
    simp only [Rows.setTmp] at ht'
    by_cases hh : t' = t
    · subst hh; rw [if_pos rfl] at ht'; exact hn ht'
    · rw [if_neg hh] at ht'; rw [ho _ (hne hh)]; exact h.dead t' ht'
  · intro t' u ht'
    simp only [Rows.setTmp] at ht'
    by_cases hh : t' = t
    · subst hh; rw [if_pos rfl] at ht'; exact hs u ht'
    · rw [if_neg hh] at ht'
      obtain ⟨a, g1, g2, g3⟩ := h.live t' u ht'
      exact ⟨a, by rw [ho _ (hne hh)]; exact g1, g2, by rw [hval _ _ (hne hh)]; exact g3⟩
  · refine ⟨fun z hz => ?_, fun z idx hin hz => ?_⟩
    · rw [header_of_eq (ho z (hz t))]; exact h.only.1 z hz
    · have : z ≠ free t := by
        rintro rfl
        obtain ⟨a, ha, _⟩ := hin
        rw [S.fresh] at ha; cases ha
      rw [get_of_eq (ho z this)]
      exact h.only.2 z idx hin hz
  · intro t' a ha
    by_cases hh : t' = t
    · subst hh; exact hlike a ha
    · rw [ho _ (hne hh)] at ha; exact h.like t' a ha

/-- A step that changes a row only. -/
theorem RowInv.row {dbg : Bool} {D : Nat → Option Desc} {w w' : World T} {A A' : AState T} {R : Rows T} (S : RowSetup A0 seqs free es)
    (h : RowInv dbg A0 seqs free es D w A R) {c i y : Nat} {ss : List Sel} {q : APart} (hp : PlcAt A0 A seqs free (.row c i) y ss q) {v : List T}
    (hr : w'.Rep A') (hobjs : w'.objs = w.objs) (hh : ∀ z, A'.header z = A.header z) (ho : ∀ z, z ≠ y → A' z = A z) (hv : A'.values y q = some v)
    (hn : ∀ idx, A.InRange y idx → (∀ i, InBox q.bases q.extents i → q.root i ≠ idx) → A'.get y idx = A.get y idx) (len : Nat → Option Nat) :
    RowInv dbg A0 seqs free es D w' A' ((rowSeqs len).put R c i v) := by
  have hkeep : ∀ pl' y' ss' q', pl' ≠ .row c i → PlcAt A0 A seqs free pl' y' ss' q' → A.Part y' ss' q' → A'.values y' q' = A.values y' q' := by
    intro pl' y' ss' q' hne hp' hP
    refine values_congr rfl (fun k hk => ?_)
    by_cases hy : y' = y
    · subst hy
      obtain ⟨a, hA, _⟩ := id hP
      have g := h.rep.goodPart hA hP
      refine hn _ ⟨a, hA, g.inBox _ (g.pos hk)⟩ (fun u hu => ?_)
      exact (PlcAt.apart S h hne hp' hp _ _ (g.pos hk) hu).symm
    · exact get_of_eq (ho y' hy) _
  obtain ⟨s0, p, h1, h2, h3, rfl, rfl⟩ := id hp
  constructor
  · exact hr
  · intro c' x ss hc
    rw [← h.heads c' x ss hc]
    unfold World.lookup
    rw [hobjs]
  · intro c' x ss p' hc hpart
    rw [part_of_header (hh x)] at hpart
    obtain ⟨r1, r2⟩ := h.rows c' x ss p' hc hpart
    have hP : A0.Part x ss p' := by
      obtain ⟨p0, b, bs, e, g1, _⟩ := S.part c' x ss hc
      have := part_some (part_header (h.only.1 x (S.ne_free hc)) g1)
      rw [hpart] at this
      cases this
      exact g1
    obtain ⟨p0, b, bs, e, g1, g2, g3⟩ := S.part c' x ss hc
    have : p0 = p' := by have a1 := part_some g1; rw [part_some hP] at a1; exact (Option.some.inj a1).symm
    subst this
    have hl : (((rowSeqs len).put R c i v).seqs c').length = (R.seqs c').length := by
      simp only [rowSeqs]
      split
      · rename_i e; rw [List.length_set, e]
      · rfl
    refine ⟨hl.trans r1, fun i' v' hv' => ?_⟩
    have hlt : i' < p0.extents.headD 0 := by
      rw [← r1, ← hl]
      exact (List.getElem?_eq_some_iff.mp hv').1
    by_cases hc' : c' = c ∧ i' = i
    · obtain ⟨rfl, rfl⟩ := hc'
      rw [h1] at hc
      simp only [Option.some.injEq, Prod.mk.injEq] at hc
      obtain ⟨rfl, rfl⟩ := hc
      have a1 := part_some h2
      rw [part_some hP] at a1
      cases a1
      simp only [rowSeqs, if_true] at hv'
      rw [List.getElem?_set_self (by omega)] at hv'
      rw [hv, hv']
    · have hold : (R.seqs c')[i']? = some v' := by
        simp only [rowSeqs] at hv'
        split at hv'
        · rename_i e
          subst e
          rwa [List.getElem?_set_ne (fun e => hc' ⟨rfl, e.symm⟩)] at hv'
        · exact hv'
      rw [← r2 i' v' hold]
      have hpl : PlcAt A0 A seqs free (.row c' i') x (ss ++ [.at (p0.bases.headD 0 + (i' : Int))]) (p0.rowPart i') := ⟨ss, p0, hc, hP, hlt, rfl, rfl⟩
      exact hkeep _ _ _ _ (fun e => hc' (by cases e; exact ⟨rfl, rfl⟩)) hpl (hpl.part S h (fun t ht => by cases ht)).1
  · intro t ht
    rw [ho _ (S.ne_free h1 t).symm]
    exact h.dead t ht
  · intro t u ht
    obtain ⟨a, g1, g2, g3⟩ := h.live t u ht
    refine ⟨a, by rw [ho _ (S.ne_free h1 t).symm]; exact g1, g2, ?_⟩
    rw [← g3]
    exact values_congr rfl (fun k _ => get_of_eq (ho _ (S.ne_free h1 t).symm) _)
  · refine ⟨fun z hz => (hh z).trans (h.only.1 z hz), fun z idx hin hz => ?_⟩
    rw [← h.only.2 z idx hin hz]
    by_cases hy : z = y
    · subst hy
      refine hn idx (inRange_header (h.only.1 z (S.ne_free h1)) hin) (fun u hu => ?_)
      obtain ⟨p0, b, bs, e, g1, g2, g3⟩ := S.part c z s0 h1
      have : p0 = p := by have a1 := part_some g1; rw [part_some h2] at a1; exact (Option.some.inj a1).symm
      subst this
      rw [g3] at h3
      exact hz c s0 p0 h1 (part_some h2) _ (rowPart_inBox g2 g3 h3 hu)
    · exact get_of_eq (ho z hy) _
  · intro t a ha
    rw [ho _ (S.ne_free h1 t).symm] at ha
    exact h.like t a ha

end MultiArray
