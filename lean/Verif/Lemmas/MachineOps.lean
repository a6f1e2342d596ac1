import Verif.Model.MachineOps
import Verif.Props.MachineIt
import Verif.Lemmas.CopyList

/- Whole operations in 64-bit arithmetic: they equal the ideal ones when the handles involved fit. -/
set_option autoImplicit false

namespace MultiArray
namespace Machine
open Spec Props
variable {T : Type}

theorem increment_ok {it : It} (h1 : -(2 ^ 63) ≤ it.idx) (h2 : it.idx + 1 < 2 ^ 63) : increment it = .ok it.increment := by
  unfold increment It.increment
  rw [chk_ok (by unfold InIndex; omega)]
  rfl

theorem end_ok {p : Ptr} {e : Nat} {es : List Nat} {s : Int} {ss : List Int} {b : Int} {bs : List Int}
    (hfit : DimsFit (b :: bs) (e :: es) (s :: ss)) :
    Machine.«end» ⟨p, e :: es, s :: ss, b :: bs⟩ = .ok ⟨b + (e : Int), ⟨p, e :: es, s :: ss, b :: bs⟩⟩ := by
  obtain ⟨f1, f2, f3, _, _⟩ := hfit
  simp only [Machine.«end», Res.get, List.getElem?_cons_zero, Res.bind_ok]
  rw [toIndex_nat f3, chk_ok (by unfold InIndex; omega)]
  rfl

theorem dist_ok {b : Int} {e : Nat} {d : Desc} (h : e < 2 ^ 63) : distanceTo ⟨b, d⟩ ⟨b + (e : Int), d⟩ = .ok (e : Int) := by
  unfold distanceTo
  simp only
  rw [show b + (e : Int) - b = (e : Int) by omega, chk_ok (by unfold InIndex; omega)]

theorem stdCopy_eq {body body' : It → It → Exec T Unit} (n : Nat) (first out : It) (h1 : -(2 ^ 63) ≤ first.idx)
    (h2 : first.idx + (n : Int) < 2 ^ 63) (h3 : -(2 ^ 63) ≤ out.idx) (h4 : out.idx + (n : Int) < 2 ^ 63)
    (hb : ∀ k : Nat, k < n → body ⟨first.idx + (k : Int), first.d⟩ ⟨out.idx + (k : Int), out.d⟩ =
      body' ⟨first.idx + (k : Int), first.d⟩ ⟨out.idx + (k : Int), out.d⟩) :
    stdCopy body n first out = MultiArray.stdCopy body' n first out := by
  induction n generalizing first out with
  | zero => rfl
  | succ n ih =>
    unfold stdCopy MultiArray.stdCopy
    have h0 := hb 0 (by omega)
    simp only [Nat.cast_zero, add_zero] at h0
    rw [show body first out = body' first out from h0, increment_ok h1 (by push_cast at h2; omega), increment_ok h3 (by push_cast at h4; omega)]
    have := ih first.increment out.increment (by simp only [It.increment]; omega) (by simp only [It.increment]; push_cast at h2; omega)
      (by simp only [It.increment]; omega) (by simp only [It.increment]; push_cast at h4; omega) (fun k hk => by
        have := hb (k + 1) (by omega)
        simp only [It.increment]
        rw [show first.idx + 1 + (k : Int) = first.idx + ((k + 1 : Nat) : Int) by push_cast; ring,
          show out.idx + 1 + (k : Int) = out.idx + ((k + 1 : Nat) : Int) by push_cast; ring]
        exact this)
    show (body' first out >>= fun _ => stdCopy body n first.increment out.increment) = _
    rw [this]

theorem stdForEach_eq {σ : Type} {body body' : It → σ → Exec T σ} (n : Nat) (first : It) (q : σ) (h1 : -(2 ^ 63) ≤ first.idx)
    (h2 : first.idx + (n : Int) < 2 ^ 63)
    (hb : ∀ (k : Nat) (q : σ), k < n → body ⟨first.idx + (k : Int), first.d⟩ q = body' ⟨first.idx + (k : Int), first.d⟩ q) :
    stdForEach body n first q = MultiArray.stdForEach body' n first q := by
  induction n generalizing first q with
  | zero => rfl
  | succ n ih =>
    unfold stdForEach MultiArray.stdForEach
    have h0 := hb 0 q (by omega)
    simp only [Nat.cast_zero, add_zero] at h0
    rw [show body first q = body' first q from h0, increment_ok h1 (by push_cast at h2; omega)]
    have := fun q => ih first.increment q (by simp only [It.increment]; omega) (by simp only [It.increment]; push_cast at h2; omega) (fun k q hk => by
        have := hb (k + 1) q (by omega)
        simp only [It.increment]
        rw [show first.idx + 1 + (k : Int) = first.idx + ((k + 1 : Nat) : Int) by push_cast; ring]
        exact this)
    show (body' first q >>= fun q' => stdForEach body n first.increment q') = _
    simp only [this]

theorem stdEqual_eq {body body' : It → It → Res Bool} (n : Nat) (first out : It) (h1 : -(2 ^ 63) ≤ first.idx)
    (h2 : first.idx + (n : Int) < 2 ^ 63) (h3 : -(2 ^ 63) ≤ out.idx) (h4 : out.idx + (n : Int) < 2 ^ 63)
    (hb : ∀ k : Nat, k < n → body ⟨first.idx + (k : Int), first.d⟩ ⟨out.idx + (k : Int), out.d⟩ =
      body' ⟨first.idx + (k : Int), first.d⟩ ⟨out.idx + (k : Int), out.d⟩) :
    stdEqual body n first out = MultiArray.stdEqual body' n first out := by
  induction n generalizing first out with
  | zero => rfl
  | succ n ih =>
    unfold stdEqual MultiArray.stdEqual
    have h0 := hb 0 (by omega)
    simp only [Nat.cast_zero, add_zero] at h0
    rw [show body first out = body' first out from h0, increment_ok h1 (by push_cast at h2; omega), increment_ok h3 (by push_cast at h4; omega)]
    have := ih first.increment out.increment (by simp only [It.increment]; omega) (by simp only [It.increment]; push_cast at h2; omega)
      (by simp only [It.increment]; omega) (by simp only [It.increment]; push_cast at h4; omega) (fun k hk => by
        have := hb (k + 1) (by omega)
        simp only [It.increment]
        rw [show first.idx + 1 + (k : Int) = first.idx + ((k + 1 : Nat) : Int) by push_cast; ring,
          show out.idx + 1 + (k : Int) = out.idx + ((k + 1 : Nat) : Int) by push_cast; ring]
        exact this)
    show (body' first out >>= fun t => if t = true then stdEqual body n first.increment out.increment else .ok false) = _
    rw [this]

theorem stdLexCompare_eq {body body' : It → It → Res Bool} (n m : Nat) (first out : It) (h1 : -(2 ^ 63) ≤ first.idx)
    (h2 : first.idx + (n : Int) < 2 ^ 63) (h3 : -(2 ^ 63) ≤ out.idx) (h4 : out.idx + (m : Int) < 2 ^ 63)
    (hb : ∀ k : Nat, k < n → k < m → body ⟨first.idx + (k : Int), first.d⟩ ⟨out.idx + (k : Int), out.d⟩ =
      body' ⟨first.idx + (k : Int), first.d⟩ ⟨out.idx + (k : Int), out.d⟩)
    (hb2 : ∀ k : Nat, k < n → k < m → body ⟨out.idx + (k : Int), out.d⟩ ⟨first.idx + (k : Int), first.d⟩ =
      body' ⟨out.idx + (k : Int), out.d⟩ ⟨first.idx + (k : Int), first.d⟩) :
    stdLexCompare body n m first out = MultiArray.stdLexCompare body' n m first out := by
  induction n generalizing m first out with
  | zero => cases m <;> rfl
  | succ n ih =>
    cases m with
    | zero => rfl
    | succ m =>
      unfold stdLexCompare MultiArray.stdLexCompare
      have h0 := hb 0 (by omega) (by omega)
      have h0' := hb2 0 (by omega) (by omega)
      simp only [Nat.cast_zero, add_zero] at h0 h0'
      rw [show body first out = body' first out from h0, show body out first = body' out first from h0',
        increment_ok h1 (by push_cast at h2; omega), increment_ok h3 (by push_cast at h4; omega)]
      have := ih m first.increment out.increment (by simp only [It.increment]; omega) (by simp only [It.increment]; push_cast at h2; omega)
        (by simp only [It.increment]; omega) (by simp only [It.increment]; push_cast at h4; omega) (fun k hk hk' => by
          have := hb (k + 1) (by omega) (by omega)
          simp only [It.increment]
          rw [show first.idx + 1 + (k : Int) = first.idx + ((k + 1 : Nat) : Int) by push_cast; ring,
            show out.idx + 1 + (k : Int) = out.idx + ((k + 1 : Nat) : Int) by push_cast; ring]
          exact this) (fun k hk hk' => by
          have := hb2 (k + 1) (by omega) (by omega)
          simp only [It.increment]
          rw [show first.idx + 1 + (k : Int) = first.idx + ((k + 1 : Nat) : Int) by push_cast; ring,
            show out.idx + 1 + (k : Int) = out.idx + ((k + 1 : Nat) : Int) by push_cast; ring]
          exact this)
      simp only [Res.bind_ok]
      rw [this]

/-- Two handles of the same shape that fit. -/
theorem assignRefW_eq (dbg : Bool) (elt : Ptr → Ptr → Exec T Unit) (n : Nat) (dst src : Desc) (hd : WellShaped dst) (hs : WellShaped src)
    (hn : src.extents.length = n) (fd : DimsFit dst.bases dst.extents dst.strides) (fs : DimsFit src.bases src.extents src.strides)
    (he : dst.extents = src.extents ∨ dbg = true) : assignRefW dbg elt n dst src = MultiArray.assignRefW dbg elt n dst src := by
  induction n generalizing dst src with
  | zero => rfl
  | succ n ih =>
    unfold assignRefW MultiArray.assignRefW
    by_cases hx : src.extents = dst.extents
    · obtain ⟨p, es, ss, bs⟩ := src
      obtain ⟨p', es', ss', bs'⟩ := dst
      simp only at hx
      subst hx
      obtain ⟨h1, h2⟩ := hs
      obtain ⟨h1', h2'⟩ := hd
      match es, ss, bs, ss', bs', h1, h2, h1', h2', fd, fs, hn with
      | e :: es, s :: ss, b :: bs, s' :: ss', b' :: bs', h1, h2, h1', h2', fd, fs, hn =>
        rw [end_ok fs, begin, begin, begin_cons, begin_cons, end_cons]
        simp only [Exec.lift_ok, pure_bind]
        rw [dist_ok fs.2.2.1]
        simp only [Exec.lift_ok, pure_bind, It.sub, It.distanceTo, show b + (e : Int) - b = (e : Int) by omega, Int.toNat_natCast]
        rw [stdCopy_eq (body' := fun i o => do
          let s ← Exec.lift (i.deref dbg)
          let d ← Exec.lift (o.deref dbg)
          MultiArray.assignRefW dbg elt n d s) e _ _ fs.1 fs.2.1 fd.1 fd.2.1]
        intro k hk
        simp only
        rw [mach_deref dbg p es ss bs fs.2.2.1 fs.2.2.2.1 hk, mach_deref dbg p' es ss' bs' fd.2.2.1 fd.2.2.2.1 hk,
          It.deref_in dbg p e es s ss b bs k hk, It.deref_in dbg p' e es s' ss' b' bs' k hk]
        simp only [Exec.lift_ok, pure_bind]
        exact ih _ _ ⟨by simpa [subAt] using h1', by simpa [subAt] using h2'⟩
          ⟨by simpa [subAt] using h1, by simpa [subAt] using h2⟩ (by simpa [subAt] using hn) fd.2.2.2.2 fs.2.2.2.2 (Or.inl rfl)
    · rcases he with he | he
      · exact absurd he.symm hx
      · subst he
        have : (assertE true (decide (src.extents = dst.extents)) : Exec T Unit) = Exec.lift .assertFail := by
          simp [assertE, hx]
        rw [this]
        rfl

theorem assignOpW_eq (dbg same : Bool) (elt : Ptr → Ptr → Exec T Unit) (dst src : Desc) (hd : WellShaped dst) (hs : WellShaped src)
    (fd : DimsFit dst.bases dst.extents dst.strides) (fs : DimsFit src.bases src.extents src.strides)
    (he : dst.extents = src.extents ∨ dbg = true ∧ dst.extents.length = src.extents.length) :
    assignOpW dbg same elt dst src = MultiArray.assignOpW dbg same elt dst src := by
  unfold assignOpW MultiArray.assignOpW
  split
  · rfl
  · rcases he with he | he
    · exact assignRefW_eq dbg elt _ dst src hd hs (by rw [he]) fd fs (Or.inl he)
    · exact assignRefW_eq dbg elt _ dst src hd hs he.2.symm fd fs (Or.inr he.1)

theorem copyDispatchW_eq (dbg : Bool) (elt : Ptr → Ptr → Exec T Unit) (n : Nat) (dst src : Desc) (hd : WellShaped dst) (hs : WellShaped src)
    (hn : src.extents.length = n) (fd : DimsFit dst.bases dst.extents dst.strides) (fs : DimsFit src.bases src.extents src.strides)
    (he : dst.extents = src.extents) : copyDispatchW dbg elt n src dst = MultiArray.copyDispatchW dbg elt n src dst := by
  induction n generalizing dst src with
  | zero => rfl
  | succ n ih =>
    unfold copyDispatchW MultiArray.copyDispatchW
    obtain ⟨p, es, ss, bs⟩ := src
    obtain ⟨p', es', ss', bs'⟩ := dst
    simp only at he
    subst he
    obtain ⟨h1, h2⟩ := hs
    obtain ⟨h1', h2'⟩ := hd
    match es', ss, bs, ss', bs', h1, h2, h1', h2', fd, fs, hn with
    | e :: es, s :: ss, b :: bs, s' :: ss', b' :: bs', h1, h2, h1', h2', fd, fs, hn =>
      rw [end_ok fs, begin, begin, begin_cons, begin_cons, end_cons]
      simp only [Exec.lift_ok, pure_bind]
      rw [dist_ok fs.2.2.1]
      simp only [Exec.lift_ok, pure_bind, It.sub, It.distanceTo, show b + (e : Int) - b = (e : Int) by omega, Int.toNat_natCast]
      rw [stdCopy_eq (body' := fun i o => do
        let s ← Exec.lift (i.deref dbg)
        let d ← Exec.lift (o.deref dbg)
        MultiArray.copyDispatchW dbg elt n s d) e _ _ fs.1 fs.2.1 fd.1 fd.2.1]
      intro k hk
      simp only
      rw [mach_deref dbg p es ss bs fs.2.2.1 fs.2.2.2.1 hk, mach_deref dbg p' es ss' bs' fd.2.2.1 fd.2.2.2.1 hk,
        It.deref_in dbg p e es s ss b bs k hk, It.deref_in dbg p' e es s' ss' b' bs' k hk]
      simp only [Exec.lift_ok, pure_bind]
      exact ih _ _ ⟨by simpa [subAt] using h1', by simpa [subAt] using h2'⟩
        ⟨by simpa [subAt] using h1, by simpa [subAt] using h2⟩ (by simpa [subAt] using hn) fd.2.2.2.2 fs.2.2.2.2 rfl

theorem copyArrayW_eq (dbg : Bool) (elt : Ptr → Ptr → Exec T Unit) (dst src : Desc) (hd : WellShaped dst) (hs : WellShaped src)
    (fd : DimsFit dst.bases dst.extents dst.strides) (fs : DimsFit src.bases src.extents src.strides)
    (he : dst.extents = src.extents ∨ dbg = true) : copyArrayW dbg elt src dst = MultiArray.copyArrayW dbg elt src dst := by
  unfold copyArrayW MultiArray.copyArrayW
  by_cases hx : src.extents = dst.extents
  · rw [copyDispatchW_eq dbg elt _ dst src hd hs rfl fd fs hx.symm]
  · rcases he with he | he
    · exact absurd he.symm hx
    · subst he
      have : (assertE true (decide (src.extents = dst.extents)) : Exec T Unit) = Exec.lift .assertFail := by
        simp [assertE, hx]
      rw [this]
      rfl

theorem forEachX_eq {σ : Type} (dbg : Bool) (f : σ → T → Exec T (T × σ)) (n : Nat) (a : Desc) (q : σ) (hw : WellShaped a)
    (hn : a.extents.length = n) (fa : DimsFit a.bases a.extents a.strides) :
    forEachX dbg f n a q = MultiArray.forEachX dbg f n a q := by
  induction n generalizing a q with
  | zero => rfl
  | succ n ih =>
    unfold forEachX MultiArray.forEachX
    obtain ⟨p, es, ss, bs⟩ := a
    obtain ⟨h1, h2⟩ := hw
    match es, ss, bs, h1, h2, fa, hn with
    | e :: es, s :: ss, b :: bs, h1, h2, fa, hn =>
      rw [end_ok fa, begin, begin_cons, end_cons]
      simp only [Exec.lift_ok, pure_bind]
      rw [dist_ok fa.2.2.1]
      simp only [Exec.lift_ok, pure_bind, It.sub, It.distanceTo, show b + (e : Int) - b = (e : Int) by omega, Int.toNat_natCast]
      rw [stdForEach_eq (body' := fun i q => do
        let s ← Exec.lift (i.deref dbg)
        MultiArray.forEachX dbg f n s q) e _ q fa.1 fa.2.1]
      intro k q hk
      simp only
      rw [mach_deref dbg p es ss bs fa.2.2.1 fa.2.2.2.1 hk, It.deref_in dbg p e es s ss b bs k hk]
      simp only [Exec.lift_ok, pure_bind]
      exact ih _ _ ⟨by simpa [subAt] using h1, by simpa [subAt] using h2⟩ (by simpa [subAt] using hn) fa.2.2.2.2

theorem forEach_eq (dbg : Bool) (f : T → T) (n : Nat) (a : Desc) (hw : WellShaped a) (hn : a.extents.length = n)
    (fa : DimsFit a.bases a.extents a.strides) : forEach dbg f n a = MultiArray.forEach dbg f n a := by
  unfold forEach
  rw [forEachX_eq dbg _ n a () hw hn fa]
  rfl

theorem equalRef_eq (dbg : Bool) (eq : T → T → Bool) (st : St T) (n : Nat) (a c : Desc) (ha : WellShaped a) (hc : WellShaped c)
    (hn : a.extents.length = n) (fa : DimsFit a.bases a.extents a.strides) (fc : DimsFit c.bases c.extents c.strides) :
    equalRef dbg eq st n a c = MultiArray.equalRef dbg eq st n a c := by
  induction n generalizing a c with
  | zero => rfl
  | succ n ih =>
    unfold equalRef MultiArray.equalRef
    by_cases hx : a.extents = c.extents
    · rw [if_pos hx, if_pos hx]
      obtain ⟨p, es, ss, bs⟩ := a
      obtain ⟨p', es', ss', bs'⟩ := c
      simp only at hx
      subst hx
      obtain ⟨h1, h2⟩ := ha
      obtain ⟨h1', h2'⟩ := hc
      match es, ss, bs, ss', bs', h1, h2, h1', h2', fa, fc, hn with
      | e :: es, s :: ss, b :: bs, s' :: ss', b' :: bs', h1, h2, h1', h2', fa, fc, hn =>
        rw [end_ok fa, begin, begin, begin_cons, begin_cons, end_cons]
        simp only [Res.bind_ok]
        rw [dist_ok fa.2.2.1]
        simp only [Res.bind_ok, It.sub, It.distanceTo, show b + (e : Int) - b = (e : Int) by omega, Int.toNat_natCast]
        apply stdEqual_eq e _ _ fa.1 fa.2.1 fc.1 fc.2.1
        intro k hk
        simp only
        rw [mach_deref dbg p es ss bs fa.2.2.1 fa.2.2.2.1 hk, mach_deref dbg p' es ss' bs' fc.2.2.1 fc.2.2.2.1 hk,
          It.deref_in dbg p e es s ss b bs k hk, It.deref_in dbg p' e es s' ss' b' bs' k hk]
        simp only [Res.bind_ok]
        exact ih _ _ ⟨by simpa [subAt] using h1, by simpa [subAt] using h2⟩ ⟨by simpa [subAt] using h1', by simpa [subAt] using h2'⟩
          (by simpa [subAt] using hn) fa.2.2.2.2 fc.2.2.2.2
    · rw [if_neg hx, if_neg hx]

theorem lessRef_eq (dbg : Bool) (lt : T → T → Bool) (st : St T) (n : Nat) (a c : Desc) (ha : WellShaped a) (hc : WellShaped c)
    (hn : a.extents.length = n) (hm : c.extents.length = n) (fa : DimsFit a.bases a.extents a.strides) (fc : DimsFit c.bases c.extents c.strides) :
    lessRef dbg lt st n a c = MultiArray.lessRef dbg lt st n a c := by
  induction n generalizing a c with
  | zero => rfl
  | succ n ih =>
    unfold lessRef MultiArray.lessRef
    obtain ⟨p, es, ss, bs⟩ := a
    obtain ⟨p', es', ss', bs'⟩ := c
    obtain ⟨h1, h2⟩ := ha
    obtain ⟨h1', h2'⟩ := hc
    match es, ss, bs, es', ss', bs', h1, h2, h1', h2', fa, fc, hn, hm with
    | e :: es, s :: ss, b :: bs, e' :: es', s' :: ss', b' :: bs', h1, h2, h1', h2', fa, fc, hn, hm =>
      rw [end_ok fa, end_ok fc, begin, begin, begin_cons, begin_cons, end_cons, end_cons]
      simp only [Res.bind_ok]
      rw [dist_ok fa.2.2.1, dist_ok fc.2.2.1]
      simp only [Res.bind_ok, It.sub, It.distanceTo, show b + (e : Int) - b = (e : Int) by omega,
        show b' + (e' : Int) - b' = (e' : Int) by omega, Int.toNat_natCast]
      apply stdLexCompare_eq e e' _ _ fa.1 fa.2.1 fc.1 fc.2.1
      · intro k hk hk'
        simp only
        rw [mach_deref dbg p es ss bs fa.2.2.1 fa.2.2.2.1 hk, mach_deref dbg p' es' ss' bs' fc.2.2.1 fc.2.2.2.1 hk',
          It.deref_in dbg p e es s ss b bs k hk, It.deref_in dbg p' e' es' s' ss' b' bs' k hk']
        simp only [Res.bind_ok]
        exact ih _ _ ⟨by simpa [subAt] using h1, by simpa [subAt] using h2⟩ ⟨by simpa [subAt] using h1', by simpa [subAt] using h2'⟩
          (by simpa [subAt] using hn) (by simpa [subAt] using hm) fa.2.2.2.2 fc.2.2.2.2
      · intro k hk hk'
        simp only
        rw [mach_deref dbg p es ss bs fa.2.2.1 fa.2.2.2.1 hk, mach_deref dbg p' es' ss' bs' fc.2.2.1 fc.2.2.2.1 hk',
          It.deref_in dbg p e es s ss b bs k hk, It.deref_in dbg p' e' es' s' ss' b' bs' k hk']
        simp only [Res.bind_ok]
        exact ih _ _ ⟨by simpa [subAt] using h1', by simpa [subAt] using h2'⟩ ⟨by simpa [subAt] using h1, by simpa [subAt] using h2⟩
          (by simpa [subAt] using hm) (by simpa [subAt] using hn) fc.2.2.2.2 fa.2.2.2.2

end Machine
end MultiArray
