import Verif.SpecHandles
import Verif.Lemmas.Abs

/- Lemmas about aliasing handles (Model/Handles.lean). -/
set_option autoImplicit false

namespace MultiArray
open Spec Props

theorem Scope.set_same (sc : Scope) (x : Nat) (o : Option Obj) : (sc.set x o) x = o := by simp [Scope.set]
theorem Scope.set_ne (sc : Scope) {x y : Nat} (o : Option Obj) (h : y ≠ x) : (sc.set x o) y = sc y := by simp [Scope.set, h]

/-- The subarray object and the copied descriptor say the same, as long as the owner does not change. -/
theorem subChain_agrees (dbg : Bool) (sc : Scope) (is : List Int) (x : SubObj) :
    (do (← SubObj.chain dbg sc is x).desc sc) = (do accessChain dbg is (← x.desc sc) : Res Desc) := by
  induction is generalizing x with
  | nil => simp only [SubObj.chain, accessChain, Res.bind_ok]; cases x.desc sc <;> rfl
  | cons i is ih =>
    simp only [SubObj.chain, accessChain, SubObj.bracket]
    cases hd : x.desc sc with
    | assertFail => rfl
    | ub => rfl
    | ok d =>
      simp only [Res.bind_ok]
      cases ha : access dbg i d with
      | assertFail => rfl
      | ub => rfl
      | ok d' =>
        simp only [Res.bind_ok]
        rw [ih]
        have : SubObj.desc sc ⟨d'.base, x.owner, x.depth + 1⟩ = .ok d' := by
          unfold SubObj.desc at hd ⊢
          cases ho : sc x.owner with
          | none => rw [ho] at hd; cases hd
          | some o =>
            rw [ho] at hd
            simp only [Res.ok.injEq] at hd ⊢
            unfold access at ha
            rw [← hd] at ha
            simp only [← List.drop_drop] at *
            generalize o.desc.extents.drop x.depth = es at *
            generalize o.desc.strides.drop x.depth = ss at *
            generalize o.desc.bases.drop x.depth = bs at *
            match es, ss, bs, ha with
            | e :: es, s :: ss, b :: bs, ha =>
              simp only at ha
              cases h1 : Res.assert dbg (decide (i - b ≥ 0)) with
              | assertFail => rw [h1] at ha; cases ha
              | ub => rw [h1] at ha; cases ha
              | ok _ =>
                rw [h1] at ha
                cases h2 : Res.assert dbg (decide ((i - b).toNat < e)) with
                | assertFail => rw [h2] at ha; cases ha
                | ub => rw [h2] at ha; cases ha
                | ok _ =>
                  rw [h2] at ha
                  simp only [Res.bind_ok, Res.ok.injEq] at ha
                  subst ha
                  simp
        rw [this, Res.bind_ok]

theorem objBracket_agrees (dbg : Bool) (sc : Scope) (x : Nat) (i : Int) {o : Obj} (ho : sc x = some o) :
    sc.bracket dbg x i = SubObj.bracket dbg sc ⟨o.desc.base, x, 0⟩ i := by
  simp only [Scope.bracket, SubObj.bracket, SubObj.desc, ho, List.drop_zero, Res.bind_ok]

/-- Chains of `operator[]` give the same with pointers as with copied arrays. -/
theorem chain_agrees (dbg : Bool) (sc : Scope) (x : Nat) (i : Int) (is : List Int) {o : Obj} (ho : sc x = some o) :
    (do (← Scope.chain dbg sc x i is).desc sc) = accessChain dbg (i :: is) o.desc := by
  have := subChain_agrees dbg sc (i :: is) ⟨o.desc.base, x, 0⟩
  simp only [SubObj.chain] at this
  unfold Scope.chain
  rw [objBracket_agrees dbg sc x i ho, this]
  simp [SubObj.desc, ho]

theorem subChain_owner (dbg : Bool) (sc : Scope) (is : List Int) (x y : SubObj) (h : SubObj.chain dbg sc is x = .ok y) :
    y.owner = x.owner ∧ y.depth = x.depth + is.length := by
  induction is generalizing x with
  | nil => simp only [SubObj.chain, Res.ok.injEq] at h; subst h; simp
  | cons i is ih =>
    simp only [SubObj.chain, SubObj.bracket] at h
    cases hd : x.desc sc with
    | assertFail => rw [hd] at h; cases h
    | ub => rw [hd] at h; cases h
    | ok d =>
      rw [hd, Res.bind_ok] at h
      cases ha : access dbg i d with
      | assertFail => rw [ha] at h; cases h
      | ub => rw [ha] at h; cases h
      | ok d' =>
        rw [ha] at h
        simp only [Res.bind_ok] at h
        obtain ⟨h1, h2⟩ := ih _ h
        exact ⟨h1, by rw [h2]; simp; omega⟩

theorem chain_owner (dbg : Bool) (sc : Scope) (x : Nat) (i : Int) (is : List Int) (y : SubObj) (h : Scope.chain dbg sc x i is = .ok y) :
    y.owner = x ∧ y.depth = is.length + 1 := by
  unfold Scope.chain at h
  cases ho : sc x with
  | none => simp only [Scope.bracket, ho] at h; cases h
  | some o =>
    rw [objBracket_agrees dbg sc x i ho] at h
    have := subChain_owner dbg sc (i :: is) ⟨o.desc.base, x, 0⟩ y h
    simpa using this

/-! ### Histories of an array header -/

theorem modify_ne {x : Nat} (ops : List HdrOp) {sc sc' : Scope} (h : Scope.modify x ops sc = .ok sc') : ∀ y, y ≠ x → sc' y = sc y := by
  induction ops generalizing sc with
  | nil => simp only [Scope.modify, Res.ok.injEq] at h; subst h; exact fun _ _ => rfl
  | cons op ops ih =>
    simp only [Scope.modify] at h
    cases ho : sc x with
    | none => rw [ho] at h; cases h
    | some o =>
      rw [ho] at h
      simp only at h
      cases ha : op.apply o with
      | assertFail => rw [ha] at h; cases h
      | ub => rw [ha] at h; cases h
      | ok o' =>
        rw [ha, Res.bind_ok] at h
        intro y hy
        rw [ih h y hy, Scope.set_ne _ _ hy]

theorem modify_array {n : Nat} {x : Nat} (ops : List HdrOp) {sc sc' : Scope} {A : ARef} (hA : Reachable n A)
    (hx : sc x = some (.array A)) (hleg : ∀ op ∈ ops, HdrOp.Legal n A.numElements op) (h : Scope.modify x ops sc = .ok sc') :
    ∃ A', sc' x = some (.array A') ∧ Reachable n A' ∧ A'.data = A.data ∧ A'.numElements = A.numElements ∧ A'.storage = A.storage ∧
      ((∀ op ∈ ops, isReindex op) → A'.extents = A.extents) := by
  induction ops generalizing sc A with
  | nil =>
    simp only [Scope.modify, Res.ok.injEq] at h
    subst h
    exact ⟨A, hx, hA, rfl, rfl, rfl, fun _ => rfl⟩
  | cons op ops ih =>
    simp only [Scope.modify, hx] at h
    have hl := hleg op (by simp)
    have hstep : ∃ A1, op.apply (.array A) = .ok (.array A1) ∧ Reachable n A1 ∧ A1.data = A.data ∧ A1.numElements = A.numElements ∧
        A1.storage = A.storage ∧ (isReindex op → A1.extents = A.extents) := by
      cases op with
      | reindex bs =>
        obtain ⟨a', e1, e2, e3, e4, e5, e6, e7, _⟩ := C11_reindex_relabels hA bs hl
        exact ⟨a', by simp [HdrOp.apply, e1], .reindexList hA e1, e6, e7, e5, fun _ => e3⟩
      | reindexAll b => exact ⟨A.reindexAll b, rfl, .reindexAll hA, rfl, rfl, rfl, fun _ => rfl⟩
      | reshape dbg es =>
        obtain ⟨a', e1, e2, e3, e4, e5, e6, _⟩ := C13_reshape_preserves hA dbg es hl.1 hl.2
        exact ⟨a', by simp [HdrOp.apply, e1], .reshape hA hl.1 hl.2 e1, e3, e4, e6, fun hh => hh.elim⟩
    obtain ⟨A1, e1, e2, e3, e4, e5, e6⟩ := hstep
    rw [e1, Res.bind_ok] at h
    obtain ⟨A', f1, f2, f3, f4, f5, f6⟩ := ih e2 (Scope.set_same _ _ _)
      (fun op hop => by rw [e4]; exact hleg op (by simp [hop])) h
    exact ⟨A', f1, f2, f3.trans e3, f4.trans e4, f5.trans e5,
      fun hh => (f6 (fun op hop => hh op (by simp [hop]))).trans (e6 (hh op (by simp)))⟩

/-- A history of `reindex` calls on any object only changes its bases (and origin). -/
theorem modify_reindex {x : Nat} (ops : List HdrOp) {sc sc' : Scope} {o : Obj} (ho : sc x = some o) (hre : ∀ op ∈ ops, isReindex op)
    (h : Scope.modify x ops sc = .ok sc') :
    ∃ o', sc' x = some o' ∧ o'.desc.extents = o.desc.extents ∧ o'.desc.strides = o.desc.strides ∧
      (o.desc.bases.length = o.desc.extents.length → o'.desc.bases.length = o.desc.extents.length) := by
  induction ops generalizing sc o with
  | nil =>
    simp only [Scope.modify, Res.ok.injEq] at h
    subst h
    exact ⟨o, ho, rfl, rfl, id⟩
  | cons op ops ih =>
    simp only [Scope.modify, ho] at h
    cases ha : op.apply o with
    | assertFail => rw [ha] at h; cases h
    | ub => rw [ha] at h; cases h
    | ok o1 =>
      rw [ha, Res.bind_ok] at h
      have h1 : o1.desc.extents = o.desc.extents ∧ o1.desc.strides = o.desc.strides ∧ o1.desc.bases.length = o.desc.extents.length := by
        have hr := hre op (by simp)
        cases op with
        | reshape dbg es => exact hr.elim
        | reindexAll b =>
          cases o with
          | array a => simp only [HdrOp.apply, Res.ok.injEq] at ha; subst ha; exact ⟨rfl, rfl, by simp [Obj.desc, ARef.desc, ARef.reindexAll, ARef.numDims]⟩
          | view v => simp only [HdrOp.apply, Res.ok.injEq] at ha; subst ha; exact ⟨rfl, rfl, by simp [Obj.desc, View.desc, View.reindexAll, View.numDims]⟩
        | reindex bs =>
          cases o with
          | array a =>
            simp only [HdrOp.apply, ARef.reindexList, copyN] at ha
            split at ha
            · simp only [Res.bind_ok, Res.ok.injEq] at ha
              subst ha
              refine ⟨rfl, rfl, ?_⟩
              simp only [Obj.desc, ARef.desc, List.length_take, ARef.numDims] at *
              omega
            · cases ha
          | view v =>
            simp only [HdrOp.apply, View.reindexList, copyN] at ha
            split at ha
            · simp only [Res.bind_ok, Res.ok.injEq] at ha
              subst ha
              refine ⟨rfl, rfl, ?_⟩
              simp only [Obj.desc, View.desc, List.length_take, View.numDims] at *
              omega
            · cases ha
      obtain ⟨o', f1, f2, f3, f4⟩ := ih (Scope.set_same _ _ _) (fun op hop => hre op (by simp [hop])) h
      refine ⟨o', f1, f2.trans h1.1, f3.trans h1.2.1, fun _ => ?_⟩
      rw [← h1.1]
      exact f4 (by rw [h1.2.2, h1.1])

theorem dot_atPos (bs ss : List Int) (k : List Nat) (h : bs.length = k.length) :
    dot (atPos bs k) ss = dot bs ss + dot (k.map (fun (x : Nat) => (x : Int))) ss := by
  induction bs generalizing k ss with
  | nil => match k, h with | [], _ => simp [atPos, dot]
  | cons b bs ih => match k, h with
    | x :: k, h => cases ss with
      | nil => simp [dot]
      | cons s ss =>
        have := ih ss k (by simpa using h)
        simp only [atPos] at this
        simp only [atPos, List.zipWith_cons_cons, dot, List.map_cons, this]; ring

/-- With the bases changed under a fixed origin, every element moves by the same distance. -/
theorem displaced (p : Ptr) (es : List Nat) (ss bs bs' : List Int) (hb : bs.length = es.length) (hb' : bs'.length = es.length)
    {k : List Nat} (hk : InShape es k) :
    address ⟨p, es, ss, bs'⟩ (atPos bs' k) = (address ⟨p, es, ss, bs⟩ (atPos bs k)).add (dot bs' ss - dot bs ss) := by
  unfold address
  simp only [Ptr.add_add]
  rw [dot_atPos bs' ss k (by rw [hb', hk.length]), dot_atPos bs ss k (by rw [hb, hk.length])]
  congr 1
  ring

end MultiArray
