import Verif.Model.MachineLoops
import Verif.Lemmas.MachineOps
import Verif.Lemmas.Loops

/- The loops that compare iterators, in 64-bit arithmetic, are the counted loops over ideal integers when the handles fit. -/
set_option autoImplicit false

namespace MultiArray
namespace Machine
open Spec Props
variable {T : Type}

theorem lift_ok_bind {α β : Type} (a : α) (f : α → Exec T β) : Exec.lift (.ok a) >>= f = f a := rfl

theorem copyLoop_eq {body : It → It → Exec T Unit} {body' : It → It → Exec T (Option Unit)} : ∀ (fuel n : Nat) (first last out : It), n ≤ fuel → last.d = first.d →
    last.idx = first.idx + (n : Int) → -(2 ^ 63) ≤ first.idx → first.idx + (n : Int) < 2 ^ 63 → -(2 ^ 63) ≤ out.idx → out.idx + (n : Int) < 2 ^ 63 →
    (∀ k : Nat, k < n → body' ⟨first.idx + (k : Int), first.d⟩ ⟨out.idx + (k : Int), out.d⟩ =
      Exec.ended (body ⟨first.idx + (k : Int), first.d⟩ ⟨out.idx + (k : Int), out.d⟩)) →
    copyLoop body' fuel first last out = Exec.ended (MultiArray.stdCopy body n first out)
  | 0, n, first, last, out, hn, h1, h3, _, _, _, _, _ => by
    have : n = 0 := by omega
    subst this
    rw [copyLoop, MultiArray.stdCopy, ended_pure, loopEqual_iff h1.symm, if_pos (by simp; omega)]
  | fuel + 1, 0, first, last, out, hn, h1, h3, _, _, _, _, _ => by
    rw [copyLoop, MultiArray.stdCopy, ended_pure, loopEqual_iff h1.symm, if_pos (by simp; omega)]
  | fuel + 1, n + 1, first, last, out, hn, h1, h3, f1, f2, g1, g2, hb => by
    have h0 := hb 0 (by omega)
    simp only [Nat.cast_zero, add_zero] at h0
    have h0 : body' first out = Exec.ended (body first out) := h0
    push_cast at f2 g2 h3
    rw [copyLoop, MultiArray.stdCopy, ended_bind, loopEqual_iff h1.symm, if_neg (by simp; omega), h0, bind_ended]
    congr 1
    funext _
    simp only
    rw [increment_ok f1 (by omega), increment_ok g1 (by omega), lift_ok_bind, lift_ok_bind]
    refine copyLoop_eq fuel n first.increment last out.increment (by omega) h1 (by show last.idx = first.idx + 1 + (n : Int); omega)
      (by show -(2 ^ 63) ≤ first.idx + 1; omega) (by show first.idx + 1 + (n : Int) < 2 ^ 63; omega) (by show -(2 ^ 63) ≤ out.idx + 1; omega)
      (by show out.idx + 1 + (n : Int) < 2 ^ 63; omega) (fun k hk => ?_)
    have := hb (k + 1) (by omega)
    simp only [It.increment]
    rw [show first.idx + 1 + (k : Int) = first.idx + ((k + 1 : Nat) : Int) by push_cast; ring,
      show out.idx + 1 + (k : Int) = out.idx + ((k + 1 : Nat) : Int) by push_cast; ring]
    exact this

theorem forEachLoop_eq {σ : Type} {body : It → σ → Exec T σ} {body' : It → σ → Exec T (Option σ)} : ∀ (fuel n : Nat) (first last : It) (q : σ), n ≤ fuel → last.d = first.d →
    last.idx = first.idx + (n : Int) → -(2 ^ 63) ≤ first.idx → first.idx + (n : Int) < 2 ^ 63 →
    (∀ (k : Nat) (q : σ), k < n → body' ⟨first.idx + (k : Int), first.d⟩ q = Exec.ended (body ⟨first.idx + (k : Int), first.d⟩ q)) →
    forEachLoop body' fuel first last q = Exec.ended (MultiArray.stdForEach body n first q)
  | 0, n, first, last, q, hn, h1, h3, _, _, _ => by
    have : n = 0 := by omega
    subst this
    rw [forEachLoop, MultiArray.stdForEach, ended_pure, loopEqual_iff h1.symm, if_pos (by simp; omega)]
  | fuel + 1, 0, first, last, q, hn, h1, h3, _, _, _ => by
    rw [forEachLoop, MultiArray.stdForEach, ended_pure, loopEqual_iff h1.symm, if_pos (by simp; omega)]
  | fuel + 1, n + 1, first, last, q, hn, h1, h3, f1, f2, hb => by
    have h0 := hb 0 q (by omega)
    simp only [Nat.cast_zero, add_zero] at h0
    have h0 : body' first q = Exec.ended (body first q) := h0
    push_cast at f2 h3
    rw [forEachLoop, MultiArray.stdForEach, ended_bind, loopEqual_iff h1.symm, if_neg (by simp; omega), h0, bind_ended]
    congr 1
    funext q'
    simp only
    rw [increment_ok f1 (by omega), lift_ok_bind]
    refine forEachLoop_eq fuel n first.increment last q' (by omega) h1 (by show last.idx = first.idx + 1 + (n : Int); omega)
      (by show -(2 ^ 63) ≤ first.idx + 1; omega) (by show first.idx + 1 + (n : Int) < 2 ^ 63; omega) (fun k q hk => ?_)
    have := hb (k + 1) q (by omega)
    simp only [It.increment]
    rw [show first.idx + 1 + (k : Int) = first.idx + ((k + 1 : Nat) : Int) by push_cast; ring]
    exact this

theorem equalLoop_eq {eqv : It → It → Exec T Bool} {eqv' : It → It → Exec T (Option Bool)} : ∀ (fuel n : Nat) (first last out : It), n ≤ fuel → last.d = first.d →
    last.idx = first.idx + (n : Int) → -(2 ^ 63) ≤ first.idx → first.idx + (n : Int) < 2 ^ 63 → -(2 ^ 63) ≤ out.idx → out.idx + (n : Int) < 2 ^ 63 →
    (∀ k : Nat, k < n → eqv' ⟨first.idx + (k : Int), first.d⟩ ⟨out.idx + (k : Int), out.d⟩ =
      Exec.ended (eqv ⟨first.idx + (k : Int), first.d⟩ ⟨out.idx + (k : Int), out.d⟩)) →
    equalLoop eqv' fuel first last out = Exec.ended (stdEqualX eqv n first out)
  | 0, n, first, last, out, hn, h1, h3, _, _, _, _, _ => by
    have : n = 0 := by omega
    subst this
    rw [equalLoop, stdEqualX, ended_pure, loopEqual_iff h1.symm, if_pos (by simp; omega)]
  | fuel + 1, 0, first, last, out, hn, h1, h3, _, _, _, _, _ => by
    rw [equalLoop, stdEqualX, ended_pure, loopEqual_iff h1.symm, if_pos (by simp; omega)]
  | fuel + 1, n + 1, first, last, out, hn, h1, h3, f1, f2, g1, g2, hb => by
    have h0 := hb 0 (by omega)
    simp only [Nat.cast_zero, add_zero] at h0
    have h0 : eqv' first out = Exec.ended (eqv first out) := h0
    push_cast at f2 g2 h3
    rw [equalLoop, stdEqualX, ended_bind, loopEqual_iff h1.symm, if_neg (by simp; omega), h0, bind_ended]
    congr 1
    funext b
    cases b with
    | false => rw [if_neg (by simp), ended_pure]
    | true =>
      rw [if_pos rfl]
      simp only
      rw [increment_ok f1 (by omega), increment_ok g1 (by omega), lift_ok_bind, lift_ok_bind]
      refine equalLoop_eq fuel n first.increment last out.increment (by omega) h1 (by show last.idx = first.idx + 1 + (n : Int); omega)
        (by show -(2 ^ 63) ≤ first.idx + 1; omega) (by show first.idx + 1 + (n : Int) < 2 ^ 63; omega) (by show -(2 ^ 63) ≤ out.idx + 1; omega)
        (by show out.idx + 1 + (n : Int) < 2 ^ 63; omega) (fun k hk => ?_)
      have := hb (k + 1) (by omega)
      simp only [It.increment]
      rw [show first.idx + 1 + (k : Int) = first.idx + ((k + 1 : Nat) : Int) by push_cast; ring,
        show out.idx + 1 + (k : Int) = out.idx + ((k + 1 : Nat) : Int) by push_cast; ring]
      exact this

theorem lexLoop_eq {lt : It → It → Exec T Bool} {lt' : It → It → Exec T (Option Bool)} : ∀ (fuel n m : Nat) (first last first' last' : It), n ≤ fuel → last.d = first.d →
    last.idx = first.idx + (n : Int) → last'.d = first'.d → last'.idx = first'.idx + (m : Int) →
    -(2 ^ 63) ≤ first.idx → first.idx + (n : Int) < 2 ^ 63 → -(2 ^ 63) ≤ first'.idx → first'.idx + (m : Int) < 2 ^ 63 →
    (∀ k : Nat, k < n → k < m → lt' ⟨first.idx + (k : Int), first.d⟩ ⟨first'.idx + (k : Int), first'.d⟩ =
      Exec.ended (lt ⟨first.idx + (k : Int), first.d⟩ ⟨first'.idx + (k : Int), first'.d⟩)) →
    (∀ k : Nat, k < n → k < m → lt' ⟨first'.idx + (k : Int), first'.d⟩ ⟨first.idx + (k : Int), first.d⟩ =
      Exec.ended (lt ⟨first'.idx + (k : Int), first'.d⟩ ⟨first.idx + (k : Int), first.d⟩)) →
    lexLoop lt' fuel first last first' last' = Exec.ended (stdLexCompareX lt n m first first')
  | fuel, n, 0, first, last, first', last', hn, h1, h3, g1, g3, _, _, _, _, _, _ => by
    have e2 : first'.equal last' = true := by rw [loopEqual_iff g1.symm]; simp; omega
    have : stdLexCompareX lt n 0 first first' = pure false := by cases n <;> rfl
    rw [this, ended_pure]
    cases fuel <;> simp only [lexLoop, e2] <;> simp
  | fuel, 0, m + 1, first, last, first', last', hn, h1, h3, g1, g3, _, _, _, _, _, _ => by
    have e1 : first.equal last = true := by rw [loopEqual_iff h1.symm]; simp; omega
    have e2 : first'.equal last' = false := by rw [loopEqual_iff g1.symm]; simp; omega
    rw [stdLexCompareX, ended_pure]
    cases fuel <;> simp only [lexLoop, e1, e2] <;> simp
  | 0, n + 1, m + 1, first, last, first', last', hn, _, _, _, _, _, _, _, _, _, _ => by omega
  | fuel + 1, n + 1, m + 1, first, last, first', last', hn, h1, h3, g1, g3, f1, f2, f3, f4, hb, hb' => by
    have e1 : first.equal last = false := by rw [loopEqual_iff h1.symm]; simp; omega
    have e2 : first'.equal last' = false := by rw [loopEqual_iff g1.symm]; simp; omega
    have h0 := hb 0 (by omega) (by omega)
    have h0' := hb' 0 (by omega) (by omega)
    simp only [Nat.cast_zero, add_zero] at h0 h0'
    have h0 : lt' first first' = Exec.ended (lt first first') := h0
    have h0' : lt' first' first = Exec.ended (lt first' first) := h0'
    push_cast at f2 f4 h3 g3
    rw [lexLoop, stdLexCompareX, ended_bind, if_pos (by rw [e1, e2]; rfl), h0, bind_ended]
    congr 1
    funext b
    cases b with
    | true => rw [if_pos rfl, ended_pure]
    | false =>
      rw [if_neg (by simp), ended_bind]
      show lt' first' first >>= _ = _
      rw [h0', bind_ended]
      congr 1
      funext b
      cases b with
      | true => rw [if_pos rfl, ended_pure]
      | false =>
        rw [if_neg (by simp)]
        simp only
        rw [increment_ok f1 (by omega), increment_ok f3 (by omega), lift_ok_bind, lift_ok_bind]
        refine lexLoop_eq fuel n m first.increment last first'.increment last' (by omega) h1 (by show last.idx = first.idx + 1 + (n : Int); omega)
          g1 (by show last'.idx = first'.idx + 1 + (m : Int); omega)
          (by show -(2 ^ 63) ≤ first.idx + 1; omega) (by show first.idx + 1 + (n : Int) < 2 ^ 63; omega) (by show -(2 ^ 63) ≤ first'.idx + 1; omega)
          (by show first'.idx + 1 + (m : Int) < 2 ^ 63; omega) (fun k hk hk' => ?_) (fun k hk hk' => ?_)
        · have := hb (k + 1) (by omega) (by omega)
          simp only [It.increment]
          rw [show first.idx + 1 + (k : Int) = first.idx + ((k + 1 : Nat) : Int) by push_cast; ring,
            show first'.idx + 1 + (k : Int) = first'.idx + ((k + 1 : Nat) : Int) by push_cast; ring]
          exact this
        · have := hb' (k + 1) (by omega) (by omega)
          simp only [It.increment]
          rw [show first.idx + 1 + (k : Int) = first.idx + ((k + 1 : Nat) : Int) by push_cast; ring,
            show first'.idx + 1 + (k : Int) = first'.idx + ((k + 1 : Nat) : Int) by push_cast; ring]
          exact this

theorem copyDispatchLoop_eq (dbg : Bool) (elt : Ptr → Ptr → Exec T Unit) (fuel n : Nat) (dst src : Desc) (hd : WellShaped dst) (hs : WellShaped src)
    (hn : src.extents.length = n) (fd : DimsFit dst.bases dst.extents dst.strides) (fs : DimsFit src.bases src.extents src.strides)
    (he : dst.extents = src.extents) (hf : Enough fuel src) : copyDispatchLoop dbg elt fuel n src dst = Exec.ended (MultiArray.copyDispatchW dbg elt n src dst) := by
  induction n generalizing dst src with
  | zero => rfl
  | succ n ih =>
    unfold copyDispatchLoop MultiArray.copyDispatchW
    obtain ⟨p, es, ss, bs⟩ := src
    obtain ⟨p', es', ss', bs'⟩ := dst
    simp only at he
    subst he
    obtain ⟨h1, h2⟩ := hs
    obtain ⟨h1', h2'⟩ := hd
    match es', ss, bs, ss', bs', h1, h2, h1', h2', fd, fs, hn, hf with
    | e :: es, s :: ss, b :: bs, s' :: ss', b' :: bs', h1, h2, h1', h2', fd, fs, hn, hf =>
      rw [end_ok fs, begin, begin, begin_cons, begin_cons, end_cons]
      simp only [Exec.lift_ok, pure_bind, It.sub, It.distanceTo, show b + (e : Int) - b = (e : Int) by omega, Int.toNat_natCast]
      refine copyLoop_eq fuel e _ _ _ (hf e (by simp)) rfl rfl fs.1 fs.2.1 fd.1 fd.2.1 (fun k hk => ?_)
      simp only
      rw [mach_deref dbg p es ss bs fs.2.2.1 fs.2.2.2.1 hk, mach_deref dbg p' es ss' bs' fd.2.2.1 fd.2.2.2.1 hk,
        It.deref_in dbg p e es s ss b bs k hk, It.deref_in dbg p' e es s' ss' b' bs' k hk]
      simp only [Exec.lift_ok, pure_bind]
      exact ih _ _ ⟨by simpa [subAt] using h1', by simpa [subAt] using h2'⟩
        ⟨by simpa [subAt] using h1, by simpa [subAt] using h2⟩ (by simpa [subAt] using hn) fd.2.2.2.2 fs.2.2.2.2 rfl
        (fun x hx => hf x (by simp only [subAt] at hx; simp [hx]))

theorem assignRefLoop_eq (dbg : Bool) (elt : Ptr → Ptr → Exec T Unit) (fuel n : Nat) (dst src : Desc) (hd : WellShaped dst) (hs : WellShaped src)
    (hn : src.extents.length = n) (fd : DimsFit dst.bases dst.extents dst.strides) (fs : DimsFit src.bases src.extents src.strides)
    (he : dst.extents = src.extents ∨ dbg = true) (hf : Enough fuel src) :
    assignRefLoop dbg elt fuel n dst src = Exec.ended (MultiArray.assignRefW dbg elt n dst src) := by
  induction n generalizing dst src with
  | zero => rfl
  | succ n ih =>
    unfold assignRefLoop MultiArray.assignRefW
    rw [ended_bind]
    refine lift_bind_congr (fun _ _ => ?_)
    rw [ended_bind]
    by_cases hx : src.extents = dst.extents
    · refine lift_bind_congr (fun _ _ => ?_)
      obtain ⟨p, es, ss, bs⟩ := src
      obtain ⟨p', es', ss', bs'⟩ := dst
      simp only at hx
      subst hx
      obtain ⟨h1, h2⟩ := hs
      obtain ⟨h1', h2'⟩ := hd
      match es, ss, bs, ss', bs', h1, h2, h1', h2', fd, fs, hn, hf with
      | e :: es, s :: ss, b :: bs, s' :: ss', b' :: bs', h1, h2, h1', h2', fd, fs, hn, hf =>
        rw [end_ok fs, begin, begin, begin_cons, begin_cons, end_cons]
        simp only [Exec.lift_ok, pure_bind, It.sub, It.distanceTo, show b + (e : Int) - b = (e : Int) by omega, Int.toNat_natCast]
        refine copyLoop_eq fuel e _ _ _ (hf e (by simp)) rfl rfl fs.1 fs.2.1 fd.1 fd.2.1 (fun k hk => ?_)
        simp only
        rw [mach_deref dbg p es ss bs fs.2.2.1 fs.2.2.2.1 hk, mach_deref dbg p' es ss' bs' fd.2.2.1 fd.2.2.2.1 hk,
          It.deref_in dbg p e es s ss b bs k hk, It.deref_in dbg p' e es s' ss' b' bs' k hk]
        simp only [Exec.lift_ok, pure_bind]
        exact ih _ _ ⟨by simpa [subAt] using h1', by simpa [subAt] using h2'⟩
          ⟨by simpa [subAt] using h1, by simpa [subAt] using h2⟩ (by simpa [subAt] using hn) fd.2.2.2.2 fs.2.2.2.2 (Or.inl rfl)
          (fun x hx => hf x (by simp only [subAt] at hx; simp [hx]))
    · rcases he with he | he
      · exact absurd he.symm hx
      · subst he
        have : (assertE true (decide (src.extents = dst.extents)) : Exec T Unit) = Exec.lift .assertFail := by
          simp [assertE, hx]
        rw [this]
        rfl

theorem forEachXLoop_eq {σ : Type} (dbg : Bool) (f : σ → T → Exec T (T × σ)) (fuel n : Nat) (a : Desc) (q : σ) (hw : WellShaped a)
    (hn : a.extents.length = n) (fa : DimsFit a.bases a.extents a.strides) (hf : Enough fuel a) :
    forEachXLoop dbg f fuel n a q = Exec.ended (MultiArray.forEachX dbg f n a q) := by
  induction n generalizing a q with
  | zero =>
    rw [forEachXLoop, MultiArray.forEachX]
    simp only [ended_bind, ended_pure]
  | succ n ih =>
    unfold forEachXLoop MultiArray.forEachX
    obtain ⟨p, es, ss, bs⟩ := a
    obtain ⟨h1, h2⟩ := hw
    match es, ss, bs, h1, h2, fa, hn, hf with
    | e :: es, s :: ss, b :: bs, h1, h2, fa, hn, hf =>
      rw [end_ok fa, begin, begin_cons, end_cons]
      simp only [Exec.lift_ok, pure_bind, It.sub, It.distanceTo, show b + (e : Int) - b = (e : Int) by omega, Int.toNat_natCast]
      refine forEachLoop_eq fuel e _ _ q (hf e (by simp)) rfl rfl fa.1 fa.2.1 (fun k q hk => ?_)
      simp only
      rw [mach_deref dbg p es ss bs fa.2.2.1 fa.2.2.2.1 hk, It.deref_in dbg p e es s ss b bs k hk]
      simp only [Exec.lift_ok, pure_bind]
      exact ih _ _ ⟨by simpa [subAt] using h1, by simpa [subAt] using h2⟩ (by simpa [subAt] using hn) fa.2.2.2.2
        (fun x hx => hf x (by simp only [subAt] at hx; simp [hx]))

theorem equalRefLoop_eq (dbg : Bool) (elt : Ptr → Ptr → Exec T Bool) (fuel n : Nat) (a c : Desc) (ha : WellShaped a) (hc : WellShaped c)
    (hn : a.extents.length = n) (fa : DimsFit a.bases a.extents a.strides) (fc : DimsFit c.bases c.extents c.strides) (hf : Enough fuel a) :
    equalRefLoop dbg elt fuel n a c = Exec.ended (equalRefX dbg elt n a c) := by
  induction n generalizing a c with
  | zero => rfl
  | succ n ih =>
    unfold equalRefLoop equalRefX
    by_cases hx : a.extents = c.extents
    · rw [if_pos hx, if_pos hx]
      obtain ⟨p, es, ss, bs⟩ := a
      obtain ⟨p', es', ss', bs'⟩ := c
      simp only at hx
      subst hx
      obtain ⟨h1, h2⟩ := ha
      obtain ⟨h1', h2'⟩ := hc
      match es, ss, bs, ss', bs', h1, h2, h1', h2', fa, fc, hn, hf with
      | e :: es, s :: ss, b :: bs, s' :: ss', b' :: bs', h1, h2, h1', h2', fa, fc, hn, hf =>
        rw [end_ok fa, begin, begin, begin_cons, begin_cons, end_cons]
        simp only [Exec.lift_ok, pure_bind, It.sub, It.distanceTo, show b + (e : Int) - b = (e : Int) by omega, Int.toNat_natCast]
        refine equalLoop_eq fuel e _ _ _ (hf e (by simp)) rfl rfl fa.1 fa.2.1 fc.1 fc.2.1 (fun k hk => ?_)
        simp only
        rw [mach_deref dbg p es ss bs fa.2.2.1 fa.2.2.2.1 hk, mach_deref dbg p' es ss' bs' fc.2.2.1 fc.2.2.2.1 hk,
          It.deref_in dbg p e es s ss b bs k hk, It.deref_in dbg p' e es s' ss' b' bs' k hk]
        simp only [Exec.lift_ok, pure_bind]
        exact ih _ _ ⟨by simpa [subAt] using h1, by simpa [subAt] using h2⟩ ⟨by simpa [subAt] using h1', by simpa [subAt] using h2'⟩
          (by simpa [subAt] using hn) fa.2.2.2.2 fc.2.2.2.2 (fun x hx => hf x (by simp only [subAt] at hx; simp [hx]))
    · rw [if_neg hx, if_neg hx, ended_pure]

theorem lessRefLoop_eq (dbg : Bool) (elt : Ptr → Ptr → Exec T Bool) (fuel n : Nat) (a c : Desc) (ha : WellShaped a) (hc : WellShaped c)
    (hn : a.extents.length = n) (hm : c.extents.length = n) (fa : DimsFit a.bases a.extents a.strides) (fc : DimsFit c.bases c.extents c.strides)
    (hf : Enough fuel a) (hf' : Enough fuel c) : lessRefLoop dbg elt fuel n a c = Exec.ended (lessRefX dbg elt n a c) := by
  induction n generalizing a c with
  | zero => rfl
  | succ n ih =>
    unfold lessRefLoop lessRefX
    obtain ⟨p, es, ss, bs⟩ := a
    obtain ⟨p', es', ss', bs'⟩ := c
    obtain ⟨h1, h2⟩ := ha
    obtain ⟨h1', h2'⟩ := hc
    match es, ss, bs, es', ss', bs', h1, h2, h1', h2', fa, fc, hn, hm, hf, hf' with
    | e :: es, s :: ss, b :: bs, e' :: es', s' :: ss', b' :: bs', h1, h2, h1', h2', fa, fc, hn, hm, hf, hf' =>
      rw [end_ok fa, end_ok fc, begin, begin, begin_cons, begin_cons, end_cons, end_cons]
      simp only [Exec.lift_ok, pure_bind, It.sub, It.distanceTo, show b + (e : Int) - b = (e : Int) by omega,
        show b' + (e' : Int) - b' = (e' : Int) by omega, Int.toNat_natCast]
      refine lexLoop_eq fuel e e' _ _ _ _ (hf e (by simp)) rfl rfl rfl rfl fa.1 fa.2.1 fc.1 fc.2.1 (fun k hk hk' => ?_) (fun k hk hk' => ?_)
      · simp only
        rw [mach_deref dbg p es ss bs fa.2.2.1 fa.2.2.2.1 hk, mach_deref dbg p' es' ss' bs' fc.2.2.1 fc.2.2.2.1 hk',
          It.deref_in dbg p e es s ss b bs k hk, It.deref_in dbg p' e' es' s' ss' b' bs' k hk']
        simp only [Exec.lift_ok, pure_bind]
        exact ih _ _ ⟨by simpa [subAt] using h1, by simpa [subAt] using h2⟩ ⟨by simpa [subAt] using h1', by simpa [subAt] using h2'⟩
          (by simpa [subAt] using hn) (by simpa [subAt] using hm) fa.2.2.2.2 fc.2.2.2.2
          (fun x hx => hf x (by simp only [subAt] at hx; simp [hx])) (fun x hx => hf' x (by simp only [subAt] at hx; simp [hx]))
      · simp only
        rw [mach_deref dbg p es ss bs fa.2.2.1 fa.2.2.2.1 hk, mach_deref dbg p' es' ss' bs' fc.2.2.1 fc.2.2.2.1 hk',
          It.deref_in dbg p e es s ss b bs k hk, It.deref_in dbg p' e' es' s' ss' b' bs' k hk']
        simp only [Exec.lift_ok, pure_bind]
        exact ih _ _ ⟨by simpa [subAt] using h1', by simpa [subAt] using h2'⟩ ⟨by simpa [subAt] using h1, by simpa [subAt] using h2⟩
          (by simpa [subAt] using hm) (by simpa [subAt] using hn) fc.2.2.2.2 fa.2.2.2.2
          (fun x hx => hf' x (by simp only [subAt] at hx; simp [hx])) (fun x hx => hf x (by simp only [subAt] at hx; simp [hx]))

end Machine
end MultiArray
