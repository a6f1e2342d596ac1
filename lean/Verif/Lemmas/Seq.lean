import Verif.SpecSeq
import Verif.Lemmas.Iter
import Verif.Lemmas.HandleMem

/- Iterator algorithms on the library's iterators behave as on plain sequences. -/
set_option autoImplicit false

namespace MultiArray
open Spec
variable {T α S : Type}

/-- The iterator object for a position. -/
def toIt (e : Nat) (b : Int) (d : Desc) (p : SPos) : AnyIt :=
  if p.rev then .bwd ⟨⟨b + ((e : Int) - (p.i : Int)), d⟩⟩ else .fwd ⟨b + (p.i : Int), d⟩

/-- What makes sequences `q` with states `S` an abstraction of the one-dimensional handles `ds`. -/
structure SeqSim (ds : Nat → Option Desc) (q : Seqs T S) (Rel : S → St T → Prop) : Prop where
  shape : ∀ c e, q.len c = some e → ∃ p s b, ds c = some ⟨p, [e], [s], [b]⟩
  get : ∀ st m c e p s b i v, Rel st m → q.len c = some e → ds c = some ⟨p, [e], [s], [b]⟩ → i < e → q.get st c i = some v →
    m.get? (p.add ((b + (i : Int)) * s)) = some v
  live : ∀ st m c e p s b i, Rel st m → q.len c = some e → ds c = some ⟨p, [e], [s], [b]⟩ → i < e →
    ∃ v, m.get? (p.add ((b + (i : Int)) * s)) = some v
  put : ∀ st m m' c e p s b i v, Rel st m → q.len c = some e → ds c = some ⟨p, [e], [s], [b]⟩ → i < e →
    (∀ x, m'.cell? x = if x = p.add ((b + (i : Int)) * s) then some (.obj v) else m.cell? x) → SameBlocks m m' →
    Rel (q.put st c i v) m'

/-- The iterator variables hold the iterators for the positions. -/
def RegsRel (ds : Nat → Option Desc) (q : Seqs T S) (ps : Nat → Option SPos) (its : Nat → Option AnyIt) : Prop :=
  ∀ r sp, ps r = some sp → ∃ e p s b, q.len sp.seq = some e ∧ ds sp.seq = some ⟨p, [e], [s], [b]⟩ ∧ sp.i ≤ e ∧
    its r = some (toIt e b ⟨p, [e], [s], [b]⟩ sp)

theorem RegsRel.set {ds : Nat → Option Desc} {q : Seqs T S} {ps : Nat → Option SPos} {its : Nat → Option AnyIt}
    (h : RegsRel ds q ps its) (r : Nat) (sp : SPos) (it : AnyIt) (e : Nat) (p : Ptr) (s b : Int) (h1 : q.len sp.seq = some e)
    (h2 : ds sp.seq = some ⟨p, [e], [s], [b]⟩) (h3 : sp.i ≤ e) (h4 : it = toIt e b ⟨p, [e], [s], [b]⟩ sp) :
    RegsRel ds q (Seqs.setPos ps r sp) (Seqs.setPos its r it) := by
  intro r' sp' hr
  unfold Seqs.setPos at hr ⊢
  by_cases hx : r' = r
  · rw [if_pos hx] at hr ⊢
    injection hr with hr
    subst hr
    exact ⟨e, p, s, b, h1, h2, h3, by rw [h4]⟩
  · rw [if_neg hx] at hr ⊢
    exact h r' sp' hr

/-- Outcome of the algorithm on memory against its outcome on sequences. -/
def Agrees (Rel : S → St T → Prop) (m : St T) : SRes T S α → Out T α → Prop
  | .done a st sc, o => ∃ m', o = .ok a m' ∧ Rel st m' ∧ m'.sched = sc ∧ SameBlocks m m'
  | .threw st sc, o => ∃ m', o = .throw m' ∧ Rel st m' ∧ m'.sched = sc ∧ SameBlocks m m'
  | .illegal, _ => True

theorem Agrees.ofOption {β : Type} {Rel : S → St T → Prop} {m : St T} {o : Option β} {k : β → SRes T S α} {out : Out T α}
    (h : ∀ b, o = some b → Agrees Rel m (k b) out) : Agrees Rel m (SRes.ofOption o k) out := by
  cases o with
  | none => exact True.intro
  | some b => exact h b rfl

theorem Agrees.trans {Rel : S → St T → Prop} {m m' : St T} {r : SRes T S α} {o : Out T α} (hb : SameBlocks m m')
    (h : Agrees Rel m' r o) : Agrees Rel m r o := by
  cases r with
  | done a st sc => obtain ⟨x, h1, h2, h3, h4⟩ := h; exact ⟨x, h1, h2, h3, hb.trans h4⟩
  | threw st sc => obtain ⟨x, h1, h2, h3, h4⟩ := h; exact ⟨x, h1, h2, h3, hb.trans h4⟩
  | illegal => exact True.intro

theorem toIt_deref (dbg : Bool) (e : Nat) (p : Ptr) (s b : Int) (sp : SPos) (h : sp.i < e) :
    (toIt e b ⟨p, [e], [s], [b]⟩ sp).deref dbg =
      .ok ⟨p.add ((b + ((if sp.rev then e - 1 - sp.i else sp.i : Nat) : Int)) * s), [], [], []⟩ := by
  unfold toIt
  cases hr : sp.rev with
  | false => exact It.deref_in dbg p e [] s [] b [] sp.i h
  | true =>
    have := It.deref_in dbg p e [] s [] b [] (e - 1 - sp.i) (by omega)
    have hx : b + ((e : Int) - (sp.i : Int)) - 1 = b + ((e - 1 - sp.i : Nat) : Int) := by omega
    rw [if_pos rfl, if_pos rfl]
    show It.deref dbg ⟨b + ((e : Int) - (sp.i : Int)) - 1, ⟨p, [e], [s], [b]⟩⟩ = _
    rw [hx]
    exact this

theorem toIt_moved (e : Nat) (b : Int) (d : Desc) (sp : SPos) (n : Int) (h : 0 ≤ (sp.i : Int) + n) :
    (toIt e b d sp).add n = toIt e b d { sp with i := ((sp.i : Int) + n).toNat } := by
  unfold toIt
  cases sp.rev with
  | false =>
    show AnyIt.fwd (It.mk (b + (sp.i : Int) + n) d) = AnyIt.fwd (It.mk (b + ((((sp.i : Int) + n).toNat : Nat) : Int)) d)
    rw [show b + (sp.i : Int) + n = b + ((((sp.i : Int) + n).toNat : Nat) : Int) by omega]
  | true =>
    show AnyIt.bwd (RIt.mk (It.mk (b + ((e : Int) - (sp.i : Int)) + -n) d)) =
      AnyIt.bwd (RIt.mk (It.mk (b + ((e : Int) - ((((sp.i : Int) + n).toNat : Nat) : Int))) d))
    rw [show b + ((e : Int) - (sp.i : Int)) + -n = b + ((e : Int) - ((((sp.i : Int) + n).toNat : Nat) : Int)) by omega]

theorem toIt_inc (e : Nat) (b : Int) (d : Desc) (sp : SPos) : (toIt e b d sp).inc = (toIt e b d sp).add 1 := by
  unfold toIt
  cases sp.rev <;> rfl

theorem toIt_dec (e : Nat) (b : Int) (d : Desc) (sp : SPos) : (toIt e b d sp).dec = (toIt e b d sp).add (-1) := by
  unfold toIt
  cases sp.rev with
  | false => simp [AnyIt.dec, AnyIt.add, It.decrement, It.advance]; omega
  | true => simp [AnyIt.dec, AnyIt.add, RIt.decrement, RIt.advance, It.increment, It.advance]

theorem toIt_index (dbg : Bool) (n : Int) (e : Nat) (b : Int) (d : Desc) (sp : SPos) :
    (toIt e b d sp).index dbg n = ((toIt e b d sp).add n).deref dbg := by
  unfold toIt
  cases sp.rev <;> rfl

theorem toIt_equal (e : Nat) (b : Int) (d : Desc) (x y : SPos) (h : x.rev = y.rev) :
    (toIt e b d x).equal (toIt e b d y) = .ok (decide (x.i = y.i)) := by
  unfold toIt
  rw [h]
  cases y.rev with
  | false =>
    show Res.ok (It.equal ⟨b + (x.i : Int), d⟩ ⟨b + (y.i : Int), d⟩) = _
    congr 1
    rw [Bool.eq_iff_iff, It.equal_iff]
    simp
  | true =>
    show Res.ok (It.equal ⟨b + ((e : Int) - (x.i : Int)), d⟩ ⟨b + ((e : Int) - (y.i : Int)), d⟩) = _
    congr 1
    rw [Bool.eq_iff_iff, It.equal_iff]
    simp

theorem toIt_less (e : Nat) (b : Int) (d : Desc) (x y : SPos) (h : x.rev = y.rev) :
    (toIt e b d x).less (toIt e b d y) = .ok (decide (x.i < y.i)) := by
  unfold toIt
  rw [h]
  cases y.rev with
  | false =>
    show Res.ok (decide (0 > -((b + (y.i : Int)) - (b + (x.i : Int))))) = _
    congr 1
    rw [Bool.eq_iff_iff]
    simp only [decide_eq_true_eq]; omega
  | true =>
    show Res.ok (decide (0 > -((b + ((e : Int) - (x.i : Int))) - (b + ((e : Int) - (y.i : Int)))))) = _
    congr 1
    rw [Bool.eq_iff_iff]
    simp only [decide_eq_true_eq]; omega

theorem toIt_diff (e : Nat) (b : Int) (d : Desc) (x y : SPos) (h : x.rev = y.rev) :
    (toIt e b d x).diff (toIt e b d y) = .ok ((x.i : Int) - (y.i : Int)) := by
  unfold toIt
  rw [h]
  cases y.rev with
  | false =>
    show Res.ok ((b + (x.i : Int)) - (b + (y.i : Int))) = _
    congr 1; omega
  | true =>
    show Res.ok ((b + ((e : Int) - (y.i : Int))) - (b + ((e : Int) - (x.i : Int)))) = _
    congr 1; omega

theorem moved_some {q : Seqs T S} {sp sp' : SPos} {n : Int} {e : Nat} (he : q.len sp.seq = some e) (h : q.moved sp n = some sp') :
    0 ≤ (sp.i : Int) + n ∧ sp' = { sp with i := ((sp.i : Int) + n).toNat } ∧ sp'.i ≤ e := by
  unfold Seqs.moved at h
  rw [he] at h
  simp only [Option.bind_some] at h
  split at h
  · rename_i hc
    injection h with h
    subst h
    exact ⟨hc.1, rfl, by show ((sp.i : Int) + n).toNat ≤ e; omega⟩
  · cases h

theorem elem_some {q : Seqs T S} {sp : SPos} {i : Nat} {e : Nat} (he : q.len sp.seq = some e) (h : q.elem sp = some i) :
    sp.i < e ∧ i = (if sp.rev then e - 1 - sp.i else sp.i) ∧ i < e := by
  unfold Seqs.elem at h
  rw [he] at h
  simp only [Option.bind_some] at h
  split at h
  · rename_i hc
    injection h with h
    subst h
    refine ⟨hc, rfl, ?_⟩
    split <;> omega
  · cases h

theorem both_some {x y : Option SPos} {a b : SPos} (h : Seqs.both x y = some (a, b)) :
    x = some a ∧ y = some b ∧ a.seq = b.seq ∧ a.rev = b.rev := by
  unfold Seqs.both at h
  cases x with
  | none => cases h
  | some x =>
    cases y with
    | none => cases h
    | some y =>
      simp only [Option.bind_some] at h
      split at h
      · rename_i hc
        injection h with h
        injection h with h1 h2
        subst h1; subst h2
        exact ⟨rfl, rfl, hc.1, hc.2⟩
      · cases h

theorem lift_bind_ok {β : Type} {r : Res β} {b : β} (h : r = .ok b) (f : β → Exec T α) (m : St T) :
    (Exec.lift r >>= f) m = f b m := by
  rw [h]; rfl

/-- Reading through a related iterator. -/
theorem SeqSim.load {ds : Nat → Option Desc} {q : Seqs T S} {Rel : S → St T → Prop} (hs : SeqSim ds q Rel) {st : S} {m : St T}
    (hm : Rel st m) {sp : SPos} {v : T} {e : Nat} {p : Ptr} {s b : Int} (h1 : q.len sp.seq = some e)
    (h2 : ds sp.seq = some ⟨p, [e], [s], [b]⟩) (hv : q.valueAt st sp = some v) (dbg : Bool) (f : T → Exec T α) :
    (Exec.lift ((toIt e b ⟨p, [e], [s], [b]⟩ sp).deref dbg) >>= fun x => MultiArray.load x.base >>= f) m = f v m := by
  unfold Seqs.valueAt at hv
  cases hi : q.elem sp with
  | none => rw [hi] at hv; cases hv
  | some i =>
    rw [hi] at hv
    obtain ⟨a1, a2, a3⟩ := elem_some h1 hi
    rw [lift_bind_ok (toIt_deref dbg e p s b sp a1)]
    rw [← a2]
    exact Exec.bind_ok (load_ok (hs.get st m sp.seq e p s b i v hm h1 h2 a3 hv))

theorem exec_agrees {ds : Nat → Option Desc} {q : Seqs T S} {Rel : S → St T → Prop} (hs : SeqSim ds q Rel) (dbg : Bool)
    (alg : IAlg T α) : ∀ (ps : Nat → Option SPos) (its : Nat → Option AnyIt) (st : S) (m : St T), RegsRel ds q ps its → Rel st m →
      Agrees Rel m (alg.run q ps st m.sched) (alg.exec dbg ds its m) := by
  induction alg with
  | ret a => intro ps its st m _ hm; exact ⟨m, rfl, hm, rfl, SameBlocks.refl m⟩
  | begin r c k ih =>
    intro ps its st m hr hm
    refine Agrees.ofOption (fun e he => ?_)
    obtain ⟨p, s, b, hd⟩ := hs.shape c e he
    simp only [IAlg.exec]
    rw [lift_bind_ok (b := ⟨b, ⟨p, [e], [s], [b]⟩⟩) (by rw [hd]; rfl)]
    exact ih _ _ st m (hr.set r ⟨c, false, 0⟩ _ e p s b he hd (Nat.zero_le _) (by simp [toIt])) hm
  | fin r c k ih =>
    intro ps its st m hr hm
    refine Agrees.ofOption (fun e he => ?_)
    obtain ⟨p, s, b, hd⟩ := hs.shape c e he
    simp only [IAlg.exec]
    rw [lift_bind_ok (b := ⟨b + (e : Int), ⟨p, [e], [s], [b]⟩⟩) (by rw [hd]; rfl)]
    exact ih _ _ st m (hr.set r ⟨c, false, e⟩ _ e p s b he hd (Nat.le_refl _) (by simp [toIt])) hm
  | rbegin r c k ih =>
    intro ps its st m hr hm
    refine Agrees.ofOption (fun e he => ?_)
    obtain ⟨p, s, b, hd⟩ := hs.shape c e he
    simp only [IAlg.exec]
    rw [lift_bind_ok (b := ⟨⟨b + (e : Int), ⟨p, [e], [s], [b]⟩⟩⟩) (by rw [hd]; rfl)]
    exact ih _ _ st m (hr.set r ⟨c, true, 0⟩ _ e p s b he hd (Nat.zero_le _) (by simp [toIt])) hm
  | rfin r c k ih =>
    intro ps its st m hr hm
    refine Agrees.ofOption (fun e he => ?_)
    obtain ⟨p, s, b, hd⟩ := hs.shape c e he
    simp only [IAlg.exec]
    rw [lift_bind_ok (b := ⟨⟨b, ⟨p, [e], [s], [b]⟩⟩⟩) (by rw [hd]; rfl)]
    exact ih _ _ st m (hr.set r ⟨c, true, e⟩ _ e p s b he hd (Nat.le_refl _) (by simp [toIt])) hm
  | copy r r' k ih =>
    intro ps its st m hr hm
    refine Agrees.ofOption (fun sp hsp => ?_)
    obtain ⟨e, p, s, b, h1, h2, h3, h4⟩ := hr r' sp hsp
    simp only [IAlg.exec]
    rw [lift_bind_ok (b := toIt e b ⟨p, [e], [s], [b]⟩ sp) (by rw [h4]; rfl)]
    exact ih _ _ st m (hr.set r sp _ e p s b h1 h2 h3 rfl) hm
  | base r r' k ih =>
    intro ps its st m hr hm
    refine Agrees.ofOption (fun sp' hsp' => ?_)
    cases hsp : ps r' with
    | none => rw [hsp] at hsp'; cases hsp'
    | some sp =>
      rw [hsp] at hsp'
      obtain ⟨e, p, s, b, h1, h2, h3, h4⟩ := hr r' sp hsp
      have hb : q.baseOf sp = some sp' := hsp'
      unfold Seqs.baseOf at hb
      rw [h1] at hb
      simp only [Option.bind_some] at hb
      split at hb
      · rename_i hrev
        injection hb with hb
        subst hb
        simp only [IAlg.exec]
        rw [lift_bind_ok (b := .fwd ⟨b + ((e : Int) - (sp.i : Int)), ⟨p, [e], [s], [b]⟩⟩) (by
          rw [h4]
          show (toIt e b ⟨p, [e], [s], [b]⟩ sp).base = _
          unfold toIt; rw [if_pos hrev]; rfl)]
        refine ih _ _ st m (hr.set r ⟨sp.seq, false, e - sp.i⟩ _ e p s b h1 h2 (Nat.sub_le _ _) ?_) hm
        simp only [toIt]
        rw [if_neg (by decide), show ((e - sp.i : Nat) : Int) = (e : Int) - (sp.i : Int) by omega]
      · cases hb
  | inc r k ih =>
    intro ps its st m hr hm
    refine Agrees.ofOption (fun sp' hsp' => ?_)
    cases hsp : ps r with
    | none => rw [hsp] at hsp'; cases hsp'
    | some sp =>
      rw [hsp] at hsp'
      obtain ⟨e, p, s, b, h1, h2, h3, h4⟩ := hr r sp hsp
      obtain ⟨a1, a2, a3⟩ := moved_some h1 hsp'
      simp only [IAlg.exec]
      rw [lift_bind_ok (b := toIt e b ⟨p, [e], [s], [b]⟩ sp) (by rw [h4]; rfl)]
      subst a2
      exact ih _ _ st m (hr.set r _ _ e p s b h1 h2 a3 (by rw [toIt_inc, toIt_moved _ _ _ _ _ a1])) hm
  | dec r k ih =>
    intro ps its st m hr hm
    refine Agrees.ofOption (fun sp' hsp' => ?_)
    cases hsp : ps r with
    | none => rw [hsp] at hsp'; cases hsp'
    | some sp =>
      rw [hsp] at hsp'
      obtain ⟨e, p, s, b, h1, h2, h3, h4⟩ := hr r sp hsp
      obtain ⟨a1, a2, a3⟩ := moved_some h1 hsp'
      simp only [IAlg.exec]
      rw [lift_bind_ok (b := toIt e b ⟨p, [e], [s], [b]⟩ sp) (by rw [h4]; rfl)]
      subst a2
      exact ih _ _ st m (hr.set r _ _ e p s b h1 h2 a3 (by rw [toIt_dec, toIt_moved _ _ _ _ _ a1])) hm
  | add r n k ih =>
    intro ps its st m hr hm
    refine Agrees.ofOption (fun sp' hsp' => ?_)
    cases hsp : ps r with
    | none => rw [hsp] at hsp'; cases hsp'
    | some sp =>
      rw [hsp] at hsp'
      obtain ⟨e, p, s, b, h1, h2, h3, h4⟩ := hr r sp hsp
      obtain ⟨a1, a2, a3⟩ := moved_some h1 hsp'
      simp only [IAlg.exec]
      rw [lift_bind_ok (b := toIt e b ⟨p, [e], [s], [b]⟩ sp) (by rw [h4]; rfl)]
      subst a2
      exact ih _ _ st m (hr.set r _ _ e p s b h1 h2 a3 (by rw [toIt_moved _ _ _ _ _ a1])) hm
  | equal r r' k ih =>
    intro ps its st m hr hm
    refine Agrees.ofOption (fun pp hpp => ?_)
    obtain ⟨x, y⟩ := pp
    obtain ⟨c1, c2, c3, c4⟩ := both_some hpp
    obtain ⟨e, p, s, b, h1, h2, h3, h4⟩ := hr r x c1
    obtain ⟨e', p', s', b', h1', h2', h3', h4'⟩ := hr r' y c2
    rw [← c3, h2] at h2'
    injection h2' with h2'
    simp only [Desc.mk.injEq, List.cons.injEq, and_true] at h2'
    obtain ⟨rfl, rfl, rfl, rfl⟩ := h2'
    simp only [IAlg.exec]
    rw [lift_bind_ok (b := decide (x.i = y.i)) (by rw [h4, h4']; exact toIt_equal e b _ x y c4)]
    exact ih _ _ _ st m hr hm
  | less r r' k ih =>
    intro ps its st m hr hm
    refine Agrees.ofOption (fun pp hpp => ?_)
    obtain ⟨x, y⟩ := pp
    obtain ⟨c1, c2, c3, c4⟩ := both_some hpp
    obtain ⟨e, p, s, b, h1, h2, h3, h4⟩ := hr r x c1
    obtain ⟨e', p', s', b', h1', h2', h3', h4'⟩ := hr r' y c2
    rw [← c3, h2] at h2'
    injection h2' with h2'
    simp only [Desc.mk.injEq, List.cons.injEq, and_true] at h2'
    obtain ⟨rfl, rfl, rfl, rfl⟩ := h2'
    simp only [IAlg.exec]
    rw [lift_bind_ok (b := decide (x.i < y.i)) (by rw [h4, h4']; exact toIt_less e b _ x y c4)]
    exact ih _ _ _ st m hr hm
  | diff r r' k ih =>
    intro ps its st m hr hm
    refine Agrees.ofOption (fun pp hpp => ?_)
    obtain ⟨x, y⟩ := pp
    obtain ⟨c1, c2, c3, c4⟩ := both_some hpp
    obtain ⟨e, p, s, b, h1, h2, h3, h4⟩ := hr r x c1
    obtain ⟨e', p', s', b', h1', h2', h3', h4'⟩ := hr r' y c2
    rw [← c3, h2] at h2'
    injection h2' with h2'
    simp only [Desc.mk.injEq, List.cons.injEq, and_true] at h2'
    obtain ⟨rfl, rfl, rfl, rfl⟩ := h2'
    simp only [IAlg.exec]
    rw [lift_bind_ok (b := (x.i : Int) - (y.i : Int)) (by rw [h4, h4']; exact toIt_diff e b _ x y c4)]
    exact ih _ _ _ st m hr hm
  | read r k ih =>
    intro ps its st m hr hm
    refine Agrees.ofOption (fun v hv => ?_)
    cases hsp : ps r with
    | none => rw [hsp] at hv; cases hv
    | some sp =>
      rw [hsp] at hv
      obtain ⟨e, p, s, b, h1, h2, h3, h4⟩ := hr r sp hsp
      simp only [IAlg.exec]
      have : (do (← Res.ofOption (its r)).deref dbg : Res Desc) = (toIt e b ⟨p, [e], [s], [b]⟩ sp).deref dbg := by rw [h4]; rfl
      rw [this, hs.load hm h1 h2 hv dbg]
      exact ih _ _ _ st m hr hm
  | readAt r n k ih =>
    intro ps its st m hr hm
    refine Agrees.ofOption (fun v hv => ?_)
    cases hsp : ps r with
    | none => rw [hsp] at hv; cases hv
    | some sp =>
      rw [hsp] at hv
      have hv' : (q.moved sp n).bind (q.valueAt st) = some v := hv
      obtain ⟨e, p, s, b, h1, h2, h3, h4⟩ := hr r sp hsp
      cases hmv : q.moved sp n with
      | none => rw [hmv] at hv'; cases hv'
      | some sp' =>
        rw [hmv] at hv'
        obtain ⟨a1, a2, a3⟩ := moved_some h1 hmv
        subst a2
        simp only [IAlg.exec]
        have : (do (← Res.ofOption (its r)).index dbg n : Res Desc) =
            (toIt e b ⟨p, [e], [s], [b]⟩ { sp with i := ((sp.i : Int) + n).toNat }).deref dbg := by
          rw [h4, ← toIt_moved _ _ _ _ _ a1, ← toIt_index]; rfl
        rw [this, hs.load (sp := { sp with i := ((sp.i : Int) + n).toNat }) hm h1 h2 hv' dbg]
        exact ih _ _ _ st m hr hm
  | write r v k ih =>
    intro ps its st m hr hm
    refine Agrees.ofOption (fun ci hci => ?_)
    cases hsp : ps r with
    | none => rw [hsp] at hci; cases hci
    | some sp =>
      rw [hsp] at hci
      have hci' : (q.elem sp).map (fun i => (sp.seq, i)) = some ci := hci
      obtain ⟨e, p, s, b, h1, h2, h3, h4⟩ := hr r sp hsp
      cases hi : q.elem sp with
      | none => rw [hi] at hci'; cases hci'
      | some i =>
        rw [hi] at hci'
        injection hci' with hci'
        subst hci'
        obtain ⟨a1, a2, a3⟩ := elem_some h1 hi
        simp only [IAlg.exec]
        have : (do (← Res.ofOption (its r)).deref dbg : Res Desc) = (toIt e b ⟨p, [e], [s], [b]⟩ sp).deref dbg := by rw [h4]; rfl
        rw [this, lift_bind_ok (toIt_deref dbg e p s b sp a1), ← a2]
        obtain ⟨old, hold⟩ := hs.live st m sp.seq e p s b i hm h1 h2 a3
        match hsc : m.sched with
        | [] =>
          obtain ⟨m', e1, e2, e3, e4⟩ := assignCell_ok hold v (.inl hsc)
          rw [Exec.bind_ok e1]
          have := ih ps its (q.put st sp.seq i v) m' hr (hs.put st m m' sp.seq e p s b i v hm h1 h2 a3 e2 e3)
          rw [e4, hsc] at this
          exact Agrees.trans e3 this
        | none :: fs =>
          obtain ⟨m', e1, e2, e3, e4⟩ := assignCell_ok hold v (.inr ⟨fs, hsc⟩)
          rw [Exec.bind_ok e1]
          have := ih ps its (q.put st sp.seq i v) m' hr (hs.put st m m' sp.seq e p s b i v hm h1 h2 a3 e2 e3)
          rw [e4, hsc] at this
          exact Agrees.trans e3 this
        | some junk :: fs =>
          obtain ⟨m', e1, e2, e3, e4⟩ := assignCell_throw hold v junk hsc
          rw [Exec.bind_throw e1]
          exact ⟨m', rfl, hs.put st m m' sp.seq e p s b i junk hm h1 h2 a3 e2 e3, e4, e3⟩

end MultiArray
