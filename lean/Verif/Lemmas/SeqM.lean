import Verif.SpecSeqM
import Verif.Lemmas.Seq
import Verif.Props.MachineIt
import Verif.Lemmas.MachineOps

/- Iterator algorithms in 64-bit arithmetic compute what they compute in ideal arithmetic, if the dimensions fit. -/
set_option autoImplicit false

namespace MultiArray
open Spec Props
variable {T α S : Type}

section iterators
variable {p : Ptr} {e : Nat} {es : List Nat} {s : Int} {ss : List Int} {b : Int} {bs : List Int}

theorem endM_ok (h : DimsFit (b :: bs) (e :: es) (s :: ss)) : Machine.«end» ⟨p, e :: es, s :: ss, b :: bs⟩ = .ok ⟨b + (e : Int), ⟨p, e :: es, s :: ss, b :: bs⟩⟩ := by
  obtain ⟨f1, f2, f3, _, _⟩ := h
  simp only [Machine.«end», Res.get, List.getElem?_cons_zero, Res.bind_ok]
  rw [Machine.toIndex_nat f3, Machine.chk_ok (by unfold Machine.InIndex; omega)]
  rfl

theorem toIt_derefM (dbg : Bool) (h : DimsFit (b :: bs) (e :: es) (s :: ss)) (sp : SPos) (hi : sp.i < e) :
    (toIt e b ⟨p, e :: es, s :: ss, b :: bs⟩ sp).derefM dbg = (toIt e b ⟨p, e :: es, s :: ss, b :: bs⟩ sp).deref dbg := by
  obtain ⟨f1, f2, f3, f4, _⟩ := h
  unfold toIt
  cases hr : sp.rev with
  | false =>
    simp only [Bool.false_eq_true, if_false, AnyIt.derefM, AnyIt.deref]
    rw [mach_deref dbg p es ss bs f3 f4 hi, It.deref_in dbg p e es s ss b bs sp.i hi]
  | true =>
    simp only [if_true, AnyIt.derefM, AnyIt.deref, Machine.rderef, RIt.deref, It.decrement, Machine.decrement]
    have hx : b + ((e : Int) - (sp.i : Int)) - 1 = b + ((e - 1 - sp.i : Nat) : Int) := by omega
    rw [Machine.chk_ok (by unfold Machine.InIndex; omega)]
    simp only [Res.bind_ok]
    rw [hx, mach_deref dbg p es ss bs f3 f4 (by omega), It.deref_in dbg p e es s ss b bs _ (by omega)]

theorem toIt_addM (h : DimsFit (b :: bs) (e :: es) (s :: ss)) (d : Desc) (sp : SPos) (n : Int) (hi : sp.i ≤ e) (h0 : 0 ≤ (sp.i : Int) + n)
    (h1 : ((sp.i : Int) + n).toNat ≤ e) : (toIt e b d sp).addM n = .ok ((toIt e b d sp).add n) := by
  obtain ⟨f1, f2, f3, f4, _⟩ := h
  unfold toIt
  cases hr : sp.rev with
  | false =>
    simp only [Bool.false_eq_true, if_false, AnyIt.addM, AnyIt.add, Machine.advance, It.advance]
    rw [Machine.chk_ok (by unfold Machine.InIndex; omega)]
    rfl
  | true =>
    simp only [if_true, AnyIt.addM, AnyIt.add, Machine.radvance, RIt.advance, Machine.advance, It.advance]
    rw [Machine.chk_ok (by unfold Machine.InIndex; omega)]
    simp only [Res.bind_ok]
    rw [Machine.chk_ok (by unfold Machine.InIndex; omega)]
    rfl

theorem toIt_incM (h : DimsFit (b :: bs) (e :: es) (s :: ss)) (d : Desc) (sp : SPos) (hi : sp.i + 1 ≤ e) : (toIt e b d sp).incM = .ok ((toIt e b d sp).inc) := by
  obtain ⟨f1, f2, f3, f4, _⟩ := h
  unfold toIt
  cases hr : sp.rev with
  | false =>
    simp only [Bool.false_eq_true, if_false, AnyIt.incM, AnyIt.inc, Machine.increment, It.increment]
    rw [Machine.chk_ok (by unfold Machine.InIndex; omega)]
    rfl
  | true =>
    simp only [if_true, AnyIt.incM, AnyIt.inc, Machine.rincrement, RIt.increment, Machine.decrement, It.decrement]
    rw [Machine.chk_ok (by unfold Machine.InIndex; omega)]
    rfl

theorem toIt_decM (h : DimsFit (b :: bs) (e :: es) (s :: ss)) (d : Desc) (sp : SPos) (hi : sp.i ≤ e) (h0 : 0 < sp.i) :
    (toIt e b d sp).decM = .ok ((toIt e b d sp).dec) := by
  obtain ⟨f1, f2, f3, f4, _⟩ := h
  unfold toIt
  cases hr : sp.rev with
  | false =>
    simp only [Bool.false_eq_true, if_false, AnyIt.decM, AnyIt.dec, Machine.decrement, It.decrement]
    rw [Machine.chk_ok (by unfold Machine.InIndex; omega)]
    rfl
  | true =>
    simp only [if_true, AnyIt.decM, AnyIt.dec, Machine.rdecrement, RIt.decrement, Machine.increment, It.increment]
    rw [Machine.chk_ok (by unfold Machine.InIndex; omega)]
    rfl

theorem toIt_indexM (dbg : Bool) (h : DimsFit (b :: bs) (e :: es) (s :: ss)) (sp : SPos) (n : Int) (hi : sp.i ≤ e) (h0 : 0 ≤ (sp.i : Int) + n)
    (h1 : ((sp.i : Int) + n).toNat < e) :
    (toIt e b ⟨p, e :: es, s :: ss, b :: bs⟩ sp).indexM dbg n = (toIt e b ⟨p, e :: es, s :: ss, b :: bs⟩ sp).index dbg n := by
  rw [toIt_index, toIt_moved _ _ _ _ _ h0, ← toIt_derefM dbg h { sp with i := ((sp.i : Int) + n).toNat } h1, ← toIt_moved _ _ _ _ _ h0]
  have ha := toIt_addM h ⟨p, e :: es, s :: ss, b :: bs⟩ sp n hi h0 (Nat.le_of_lt h1)
  unfold toIt at ha ⊢
  cases hr : sp.rev with
  | false =>
    rw [hr] at ha
    simp only [Bool.false_eq_true, if_false, AnyIt.addM, AnyIt.add, AnyIt.indexM, Machine.itIndex, AnyIt.derefM] at ha ⊢
    cases hx : Machine.advance ⟨b + (sp.i : Int), ⟨p, e :: es, s :: ss, b :: bs⟩⟩ n with
    | ok x => rw [hx] at ha; simp only [Res.bind_ok, Res.ok.injEq, AnyIt.fwd.injEq] at ha ⊢; rw [ha]
    | assertFail => rw [hx] at ha; cases ha
    | ub => rw [hx] at ha; cases ha
  | true =>
    rw [hr] at ha
    simp only [if_true, AnyIt.addM, AnyIt.add, AnyIt.indexM, Machine.ritIndex, AnyIt.derefM] at ha ⊢
    cases hx : Machine.radvance ⟨⟨b + ((e : Int) - (sp.i : Int)), ⟨p, e :: es, s :: ss, b :: bs⟩⟩⟩ n with
    | ok x => rw [hx] at ha; simp only [Res.bind_ok, Res.ok.injEq, AnyIt.bwd.injEq] at ha ⊢; rw [ha]
    | assertFail => rw [hx] at ha; cases ha
    | ub => rw [hx] at ha; cases ha

theorem toIt_diffM (h : DimsFit (b :: bs) (e :: es) (s :: ss)) (d : Desc) (x y : SPos) (hr : x.rev = y.rev) (hx : x.i ≤ e) (hy : y.i ≤ e) :
    (toIt e b d x).diffM (toIt e b d y) = .ok ((x.i : Int) - (y.i : Int)) := by
  obtain ⟨f1, f2, f3, f4, _⟩ := h
  unfold toIt
  rw [hr]
  cases y.rev with
  | false =>
    simp only [Bool.false_eq_true, if_false, AnyIt.diffM, Machine.itSub, Machine.distanceTo]
    rw [Machine.chk_ok (by unfold Machine.InIndex; omega)]
    simp only [Res.bind_ok]
    rw [Machine.chk_ok (by unfold Machine.InIndex; omega)]
    congr 1; omega
  | true =>
    simp only [if_true, AnyIt.diffM, Machine.ritSub, Machine.rdistanceTo, Machine.itSub, Machine.distanceTo]
    rw [Machine.chk_ok (by unfold Machine.InIndex; omega)]
    simp only [Res.bind_ok]
    rw [Machine.chk_ok (by unfold Machine.InIndex; omega)]
    simp only [Res.bind_ok]
    rw [Machine.chk_ok (by unfold Machine.InIndex; omega)]
    congr 1; omega

theorem toIt_lessM (h : DimsFit (b :: bs) (e :: es) (s :: ss)) (d : Desc) (x y : SPos) (hr : x.rev = y.rev) (hx : x.i ≤ e) (hy : y.i ≤ e) :
    (toIt e b d x).lessM (toIt e b d y) = .ok (decide (x.i < y.i)) := by
  obtain ⟨f1, f2, f3, f4, _⟩ := h
  unfold toIt
  rw [hr]
  cases y.rev with
  | false =>
    simp only [Bool.false_eq_true, if_false, AnyIt.lessM, Machine.itLess, Machine.distanceTo]
    rw [Machine.chk_ok (by unfold Machine.InIndex; omega)]
    simp only [Res.bind_ok]
    rw [Machine.chk_ok (by unfold Machine.InIndex; omega)]
    simp only [Res.bind_ok]
    congr 1; rw [Bool.eq_iff_iff]; simp only [decide_eq_true_eq]; omega
  | true =>
    simp only [if_true, AnyIt.lessM, Machine.ritLess, Machine.rdistanceTo, Machine.itSub, Machine.distanceTo]
    rw [Machine.chk_ok (by unfold Machine.InIndex; omega)]
    simp only [Res.bind_ok]
    rw [Machine.chk_ok (by unfold Machine.InIndex; omega)]
    simp only [Res.bind_ok]
    rw [Machine.chk_ok (by unfold Machine.InIndex; omega)]
    simp only [Res.bind_ok]
    congr 1; rw [Bool.eq_iff_iff]; simp only [decide_eq_true_eq]; omega

end iterators

theorem SRes.legal {β : Type} {o : Option β} {k : β → SRes T S α} (h : SRes.ofOption o k ≠ .illegal) : ∃ b, o = some b ∧ k b ≠ .illegal := by
  cases o with
  | none => exact absurd rfl h
  | some b => exact ⟨b, rfl, h⟩

/-- On elements. -/
theorem execM_elements {ds : Nat → Option Desc} {q : Seqs T S} {Rel : S → St T → Prop} (hs : SeqSim ds q Rel) (dbg : Bool)
    (hfit : ∀ c d, ds c = some d → DimsFit d.bases d.extents d.strides)
    (alg : IAlg T α) : ∀ (ps : Nat → Option SPos) (its : Nat → Option AnyIt) (st : S) (m : St T), RegsRel ds q ps its → Rel st m →
      alg.run q ps st m.sched ≠ .illegal → alg.execM dbg ds its m = alg.exec dbg ds its m := by
  induction alg with
  | ret a => intro ps its st m _ hm _; rfl
  | begin r c k ih =>
    intro ps its st m hr hm hleg
    obtain ⟨e, he, hleg⟩ := SRes.legal hleg
    obtain ⟨p, s, b, hd⟩ := hs.shape c e he
    simp only [IAlg.exec, IAlg.execM]
    rw [lift_bind_ok (b := ⟨b, ⟨p, [e], [s], [b]⟩⟩) (by rw [hd]; rfl), lift_bind_ok (b := ⟨b, ⟨p, [e], [s], [b]⟩⟩) (by rw [hd]; rfl)]
    exact ih _ _ st m (hr.set r ⟨c, false, 0⟩ _ e p s b he hd (Nat.zero_le _) (by simp [toIt])) hm hleg
  | fin r c k ih =>
    intro ps its st m hr hm hleg
    obtain ⟨e, he, hleg⟩ := SRes.legal hleg
    obtain ⟨p, s, b, hd⟩ := hs.shape c e he
    simp only [IAlg.exec, IAlg.execM]
    rw [lift_bind_ok (b := ⟨b + (e : Int), ⟨p, [e], [s], [b]⟩⟩) (by rw [hd]; exact endM_ok (hfit c _ hd)),
      lift_bind_ok (b := ⟨b + (e : Int), ⟨p, [e], [s], [b]⟩⟩) (by rw [hd]; rfl)]
    exact ih _ _ st m (hr.set r ⟨c, false, e⟩ _ e p s b he hd (Nat.le_refl _) (by simp [toIt])) hm hleg
  | rbegin r c k ih =>
    intro ps its st m hr hm hleg
    obtain ⟨e, he, hleg⟩ := SRes.legal hleg
    obtain ⟨p, s, b, hd⟩ := hs.shape c e he
    simp only [IAlg.exec, IAlg.execM]
    have hend : Machine.«end» ⟨p, [e], [s], [b]⟩ = .ok ⟨b + (e : Int), ⟨p, [e], [s], [b]⟩⟩ := endM_ok (hfit c _ hd)
    rw [lift_bind_ok (b := ⟨⟨b + (e : Int), ⟨p, [e], [s], [b]⟩⟩⟩) (by rw [hd]; show Machine.rbegin _ = _; unfold Machine.rbegin; rw [hend]; rfl),
      lift_bind_ok (b := ⟨⟨b + (e : Int), ⟨p, [e], [s], [b]⟩⟩⟩) (by rw [hd]; rfl)]
    exact ih _ _ st m (hr.set r ⟨c, true, 0⟩ _ e p s b he hd (Nat.zero_le _) (by simp [toIt])) hm hleg
  | rfin r c k ih =>
    intro ps its st m hr hm hleg
    obtain ⟨e, he, hleg⟩ := SRes.legal hleg
    obtain ⟨p, s, b, hd⟩ := hs.shape c e he
    simp only [IAlg.exec, IAlg.execM]
    rw [lift_bind_ok (b := ⟨⟨b, ⟨p, [e], [s], [b]⟩⟩⟩) (by rw [hd]; rfl), lift_bind_ok (b := ⟨⟨b, ⟨p, [e], [s], [b]⟩⟩⟩) (by rw [hd]; rfl)]
    exact ih _ _ st m (hr.set r ⟨c, true, e⟩ _ e p s b he hd (Nat.le_refl _) (by simp [toIt])) hm hleg
  | copy r r' k ih =>
    intro ps its st m hr hm hleg
    obtain ⟨sp, hsp, hleg⟩ := SRes.legal hleg
    obtain ⟨e, p, s, b, h1, h2, h3, h4⟩ := hr r' sp hsp
    simp only [IAlg.exec, IAlg.execM]
    rw [lift_bind_ok (b := toIt e b ⟨p, [e], [s], [b]⟩ sp) (by rw [h4]; rfl), lift_bind_ok (b := toIt e b ⟨p, [e], [s], [b]⟩ sp) (by rw [h4]; rfl)]
    exact ih _ _ st m (hr.set r sp _ e p s b h1 h2 h3 rfl) hm hleg
  | base r r' k ih =>
    intro ps its st m hr hm hleg
    obtain ⟨sp', hsp', hleg⟩ := SRes.legal hleg
    cases hsp : ps r' with
    | none => rw [hsp] at hsp'; cases hsp'
    | some sp =>
      rw [hsp] at hsp'
      obtain ⟨e, p, s, b, h1, h2, h3, h4⟩ := hr r' sp hsp
      have hb : q.baseOf sp = some sp' := hsp'
      unfold Seqs.baseOf at hb
      rw [h1] at hb
      simp only [Option.bind_some] at hb
      split at hb
      · rename_i hrev
        injection hb with hb
        subst hb
        simp only [IAlg.exec, IAlg.execM]
        have hbase : (do (← Res.ofOption (its r')).base) = Res.ok (.fwd ⟨b + ((e : Int) - (sp.i : Int)), ⟨p, [e], [s], [b]⟩⟩) := by
          rw [h4]
          show (toIt e b ⟨p, [e], [s], [b]⟩ sp).base = _
          unfold toIt; rw [if_pos hrev]; rfl
        rw [lift_bind_ok hbase, lift_bind_ok hbase]
        refine ih _ _ st m (hr.set r ⟨sp.seq, false, e - sp.i⟩ _ e p s b h1 h2 (Nat.sub_le _ _) ?_) hm hleg
        simp only [toIt]
        rw [if_neg (by decide), show ((e - sp.i : Nat) : Int) = (e : Int) - (sp.i : Int) by omega]
      · cases hb
  | inc r k ih =>
    intro ps its st m hr hm hleg
    obtain ⟨sp', hsp', hleg⟩ := SRes.legal hleg
    cases hsp : ps r with
    | none => rw [hsp] at hsp'; cases hsp'
    | some sp =>
      rw [hsp] at hsp'
      obtain ⟨e, p, s, b, h1, h2, h3, h4⟩ := hr r sp hsp
      obtain ⟨a1, a2, a3⟩ := moved_some h1 hsp'
      subst a2
      simp only [IAlg.exec, IAlg.execM]
      rw [lift_bind_ok (b := (toIt e b ⟨p, [e], [s], [b]⟩ sp).inc) (by rw [h4]; exact toIt_incM (hfit _ _ h2) _ _ (by simp only at a3; omega)),
        lift_bind_ok (b := toIt e b ⟨p, [e], [s], [b]⟩ sp) (by rw [h4]; rfl)]
      exact ih _ _ st m (hr.set r { sp with i := ((sp.i : Int) + 1).toNat } _ e p s b h1 h2 a3 (by rw [toIt_inc, toIt_moved _ _ _ _ _ a1])) hm hleg
  | dec r k ih =>
    intro ps its st m hr hm hleg
    obtain ⟨sp', hsp', hleg⟩ := SRes.legal hleg
    cases hsp : ps r with
    | none => rw [hsp] at hsp'; cases hsp'
    | some sp =>
      rw [hsp] at hsp'
      obtain ⟨e, p, s, b, h1, h2, h3, h4⟩ := hr r sp hsp
      obtain ⟨a1, a2, a3⟩ := moved_some h1 hsp'
      subst a2
      simp only [IAlg.exec, IAlg.execM]
      rw [lift_bind_ok (b := (toIt e b ⟨p, [e], [s], [b]⟩ sp).dec) (by rw [h4]; exact toIt_decM (hfit _ _ h2) _ _ h3 (by omega)),
        lift_bind_ok (b := toIt e b ⟨p, [e], [s], [b]⟩ sp) (by rw [h4]; rfl)]
      exact ih _ _ st m (hr.set r { sp with i := ((sp.i : Int) + -1).toNat } _ e p s b h1 h2 a3 (by rw [toIt_dec, toIt_moved _ _ _ _ _ a1])) hm hleg
  | add r n k ih =>
    intro ps its st m hr hm hleg
    obtain ⟨sp', hsp', hleg⟩ := SRes.legal hleg
    cases hsp : ps r with
    | none => rw [hsp] at hsp'; cases hsp'
    | some sp =>
      rw [hsp] at hsp'
      obtain ⟨e, p, s, b, h1, h2, h3, h4⟩ := hr r sp hsp
      obtain ⟨a1, a2, a3⟩ := moved_some h1 hsp'
      subst a2
      simp only [IAlg.exec, IAlg.execM]
      rw [lift_bind_ok (b := (toIt e b ⟨p, [e], [s], [b]⟩ sp).add n) (by rw [h4]; exact toIt_addM (hfit _ _ h2) _ _ _ h3 a1 a3),
        lift_bind_ok (b := toIt e b ⟨p, [e], [s], [b]⟩ sp) (by rw [h4]; rfl)]
      exact ih _ _ st m (hr.set r { sp with i := ((sp.i : Int) + n).toNat } _ e p s b h1 h2 a3 (by rw [toIt_moved _ _ _ _ _ a1])) hm hleg
  | equal r r' k ih =>
    intro ps its st m hr hm hleg
    obtain ⟨⟨x, y⟩, hpp, hleg⟩ := SRes.legal hleg
    obtain ⟨c1, c2, c3, c4⟩ := both_some hpp
    obtain ⟨e, p, s, b, h1, h2, h3, h4⟩ := hr r x c1
    obtain ⟨e', p', s', b', h1', h2', h3', h4'⟩ := hr r' y c2
    rw [← c3, h2] at h2'
    injection h2' with h2'
    simp only [Desc.mk.injEq, List.cons.injEq, and_true] at h2'
    obtain ⟨rfl, rfl, rfl, rfl⟩ := h2'
    simp only [IAlg.exec, IAlg.execM]
    rw [lift_bind_ok (b := decide (x.i = y.i)) (by rw [h4, h4']; exact toIt_equal e b _ x y c4),
      lift_bind_ok (b := decide (x.i = y.i)) (by rw [h4, h4']; exact toIt_equal e b _ x y c4)]
    exact ih _ _ _ st m hr hm hleg
  | less r r' k ih =>
    intro ps its st m hr hm hleg
    obtain ⟨⟨x, y⟩, hpp, hleg⟩ := SRes.legal hleg
    obtain ⟨c1, c2, c3, c4⟩ := both_some hpp
    obtain ⟨e, p, s, b, h1, h2, h3, h4⟩ := hr r x c1
    obtain ⟨e', p', s', b', h1', h2', h3', h4'⟩ := hr r' y c2
    rw [← c3, h2] at h2'
    injection h2' with h2'
    simp only [Desc.mk.injEq, List.cons.injEq, and_true] at h2'
    obtain ⟨rfl, rfl, rfl, rfl⟩ := h2'
    simp only [IAlg.exec, IAlg.execM]
    rw [lift_bind_ok (b := decide (x.i < y.i)) (by rw [h4, h4']; exact toIt_lessM (hfit _ _ h2) _ x y c4 h3 h3'),
      lift_bind_ok (b := decide (x.i < y.i)) (by rw [h4, h4']; exact toIt_less e b _ x y c4)]
    exact ih _ _ _ st m hr hm hleg
  | diff r r' k ih =>
    intro ps its st m hr hm hleg
    obtain ⟨⟨x, y⟩, hpp, hleg⟩ := SRes.legal hleg
    obtain ⟨c1, c2, c3, c4⟩ := both_some hpp
    obtain ⟨e, p, s, b, h1, h2, h3, h4⟩ := hr r x c1
    obtain ⟨e', p', s', b', h1', h2', h3', h4'⟩ := hr r' y c2
    rw [← c3, h2] at h2'
    injection h2' with h2'
    simp only [Desc.mk.injEq, List.cons.injEq, and_true] at h2'
    obtain ⟨rfl, rfl, rfl, rfl⟩ := h2'
    simp only [IAlg.exec, IAlg.execM]
    rw [lift_bind_ok (b := (x.i : Int) - (y.i : Int)) (by rw [h4, h4']; exact toIt_diffM (hfit _ _ h2) _ x y c4 h3 h3'),
      lift_bind_ok (b := (x.i : Int) - (y.i : Int)) (by rw [h4, h4']; exact toIt_diff e b _ x y c4)]
    exact ih _ _ _ st m hr hm hleg
  | read r k ih =>
    intro ps its st m hr hm hleg
    obtain ⟨v, hv, hleg⟩ := SRes.legal hleg
    cases hsp : ps r with
    | none => rw [hsp] at hv; cases hv
    | some sp =>
      rw [hsp] at hv
      obtain ⟨e, p, s, b, h1, h2, h3, h4⟩ := hr r sp hsp
      simp only [IAlg.exec, IAlg.execM]
      have hv' : (q.elem sp).bind (q.get st sp.seq) = some v := hv
      obtain ⟨i, hi, _⟩ := Option.bind_eq_some_iff.mp hv'
      have e1 : (do (← Res.ofOption (its r)).deref dbg : Res Desc) = (toIt e b ⟨p, [e], [s], [b]⟩ sp).deref dbg := by rw [h4]; rfl
      have e2 : (do (← Res.ofOption (its r)).derefM dbg : Res Desc) = (toIt e b ⟨p, [e], [s], [b]⟩ sp).deref dbg := by
        rw [h4]; exact toIt_derefM dbg (hfit _ _ h2) sp (elem_some h1 hi).1
      rw [e1, e2, hs.load hm h1 h2 hv dbg, hs.load hm h1 h2 hv dbg]
      exact ih _ _ _ st m hr hm hleg
  | readAt r n k ih =>
    intro ps its st m hr hm hleg
    obtain ⟨v, hv, hleg⟩ := SRes.legal hleg
    cases hsp : ps r with
    | none => rw [hsp] at hv; cases hv
    | some sp =>
      rw [hsp] at hv
      have hv' : (q.moved sp n).bind (q.valueAt st) = some v := hv
      obtain ⟨e, p, s, b, h1, h2, h3, h4⟩ := hr r sp hsp
      cases hmv : q.moved sp n with
      | none => rw [hmv] at hv'; cases hv'
      | some sp' =>
        rw [hmv] at hv'
        obtain ⟨a1, a2, a3⟩ := moved_some h1 hmv
        subst a2
        have hv2 : (q.elem { sp with i := ((sp.i : Int) + n).toNat }).bind (q.get st sp.seq) = some v := hv'
        obtain ⟨i, hi, _⟩ := Option.bind_eq_some_iff.mp hv2
        simp only [IAlg.exec, IAlg.execM]
        have e1 : (do (← Res.ofOption (its r)).index dbg n : Res Desc) =
            (toIt e b ⟨p, [e], [s], [b]⟩ { sp with i := ((sp.i : Int) + n).toNat }).deref dbg := by
          rw [h4, ← toIt_moved _ _ _ _ _ a1, ← toIt_index]; rfl
        have e2 : (do (← Res.ofOption (its r)).indexM dbg n : Res Desc) =
            (toIt e b ⟨p, [e], [s], [b]⟩ { sp with i := ((sp.i : Int) + n).toNat }).deref dbg := by
          rw [h4, ← toIt_moved _ _ _ _ _ a1, ← toIt_index]
          exact toIt_indexM dbg (hfit _ _ h2) sp n h3 a1 (elem_some (sp := { sp with i := ((sp.i : Int) + n).toNat }) h1 hi).1
        rw [e1, e2, hs.load (sp := { sp with i := ((sp.i : Int) + n).toNat }) hm h1 h2 hv' dbg,
          hs.load (sp := { sp with i := ((sp.i : Int) + n).toNat }) hm h1 h2 hv' dbg]
        exact ih _ _ _ st m hr hm hleg
  | write r v k ih =>
    intro ps its st m hr hm hleg
    obtain ⟨ci, hci, hleg⟩ := SRes.legal hleg
    cases hsp : ps r with
    | none => rw [hsp] at hci; cases hci
    | some sp =>
      rw [hsp] at hci
      have hci' : (q.elem sp).map (fun i => (sp.seq, i)) = some ci := hci
      obtain ⟨e, p, s, b, h1, h2, h3, h4⟩ := hr r sp hsp
      cases hi : q.elem sp with
      | none => rw [hi] at hci'; cases hci'
      | some i =>
        rw [hi] at hci'
        injection hci' with hci'
        subst hci'
        obtain ⟨a1, a2, a3⟩ := elem_some h1 hi
        simp only [IAlg.exec, IAlg.execM]
        have e1 : (do (← Res.ofOption (its r)).deref dbg : Res Desc) = (toIt e b ⟨p, [e], [s], [b]⟩ sp).deref dbg := by rw [h4]; rfl
        have e2 : (do (← Res.ofOption (its r)).derefM dbg : Res Desc) = (toIt e b ⟨p, [e], [s], [b]⟩ sp).deref dbg := by
          rw [h4]; exact toIt_derefM dbg (hfit _ _ h2) sp a1
        rw [e1, e2, lift_bind_ok (toIt_deref dbg e p s b sp a1), lift_bind_ok (toIt_deref dbg e p s b sp a1), ← a2]
        obtain ⟨old, hold⟩ := hs.live st m sp.seq e p s b i hm h1 h2 a3
        match hsc : m.sched with
        | [] =>
          obtain ⟨m', e1, e2, e3, e4⟩ := assignCell_ok hold v (.inl hsc)
          rw [Exec.bind_ok e1, Exec.bind_ok e1]
          rw [hsc] at hleg
          exact ih ps its (q.put st sp.seq i v) m' hr (hs.put st m m' sp.seq e p s b i v hm h1 h2 a3 e2 e3) (by rw [e4, hsc]; exact hleg)
        | none :: fs =>
          obtain ⟨m', e1, e2, e3, e4⟩ := assignCell_ok hold v (.inr ⟨fs, hsc⟩)
          rw [Exec.bind_ok e1, Exec.bind_ok e1]
          rw [hsc] at hleg
          exact ih ps its (q.put st sp.seq i v) m' hr (hs.put st m m' sp.seq e p s b i v hm h1 h2 a3 e2 e3) (by rw [e4, hsc]; exact hleg)
        | some junk :: fs =>
          obtain ⟨m', e1, e2, e3, e4⟩ := assignCell_throw hold v junk hsc
          rw [Exec.bind_throw e1, Exec.bind_throw e1]

end MultiArray
