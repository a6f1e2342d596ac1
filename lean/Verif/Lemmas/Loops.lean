import Verif.Model.Loops
import Verif.Lemmas.Mem
import Verif.Lemmas.Access

/- The loops that compare iterators and the loops that count are the same computations. -/
set_option autoImplicit false

namespace MultiArray
variable {T : Type}

/-- `x`, and it ended. -/
def Exec.ended {α : Type} (x : Exec T α) : Exec T (Option α) := x >>= fun a => pure (some a)

theorem ended_bind {α β : Type} (x : Exec T α) (f : α → Exec T β) : Exec.ended (x >>= f) = x >>= fun a => Exec.ended (f a) := by
  unfold Exec.ended
  rw [bind_assoc]

theorem ended_pure {α : Type} (a : α) : Exec.ended (pure a : Exec T α) = pure (some a) := by
  unfold Exec.ended
  rw [pure_bind]

/-- After something that ended. -/
theorem bind_ended {α β : Type} (x : Exec T α) (f : Option α → Exec T β) : Exec.ended x >>= f = x >>= fun a => f (some a) := by
  unfold Exec.ended
  rw [bind_assoc]
  congr 1

theorem loopEqual_iff {i j : It} (h : i.d = j.d) : i.equal j = decide (i.idx = j.idx) := by
  unfold It.equal
  simp [h]

theorem lift_bind_congr {α β : Type} {r : Res α} {f g : α → Exec T β} (h : ∀ a, r = .ok a → f a = g a) : Exec.lift r >>= f = Exec.lift r >>= g := by
  cases r with
  | ok a => exact (funext fun s => congrFun (h a rfl) s : (fun s => f a s) = fun s => g a s)
  | assertFail => rfl
  | ub => rfl

theorem loopBegin_ok {d : Desc} {first : It} (h : d.begin = .ok first) : first.d = d ∧ ∃ bs, d.bases = first.idx :: bs := by
  obtain ⟨p, e, s, b⟩ := d
  cases b with
  | nil => cases h
  | cons b bs => cases h; exact ⟨rfl, bs, rfl⟩

theorem loopEnd_ok {d : Desc} {first last : It} (hb : d.begin = .ok first) (h : d.end = .ok last) : last.d = d ∧ ∃ e es, d.extents = e :: es ∧ last.idx = first.idx + (e : Int) := by
  obtain ⟨p, e, s, b⟩ := d
  cases b with
  | nil => cases hb
  | cons b bs =>
    cases hb
    cases e with
    | nil => cases h
    | cons e es => cases h; exact ⟨rfl, e, es, rfl, rfl⟩

theorem loopSub_toNat {i j : It} {e : Nat} (h : j.idx = i.idx + (e : Int)) : (j.sub i).toNat = e := by
  show (j.idx - i.idx).toNat = e
  omega

theorem loopDeref_extents {dbg : Bool} {i : It} {d : Desc} (h : i.deref dbg = .ok d) : ∃ e, i.d.extents = e :: d.extents := by
  obtain ⟨x, p, e, s, b⟩ := i
  unfold It.deref access at h
  cases e with
  | nil => cases h
  | cons e es => cases s with
    | nil => cases h
    | cons s ss => cases b with
      | nil => cases h
      | cons b bs =>
        simp only at h
        refine ⟨e, ?_⟩
        cases h1 : Res.assert dbg (decide (x - b ≥ 0)) with
        | ok u =>
          rw [h1] at h
          cases h2 : Res.assert dbg (decide ((x - b).toNat < e)) with
          | ok u => rw [h2] at h; cases h; rfl
          | assertFail => rw [h2] at h; cases h
          | ub => rw [h2] at h; cases h
        | assertFail => rw [h1] at h; cases h
        | ub => rw [h1] at h; cases h

theorem copyLoop_eq {body : It → It → Exec T Unit} {body' : It → It → Exec T (Option Unit)} {d : Desc} (hb : ∀ i o, i.d = d → body' i o = Exec.ended (body i o)) :
    ∀ (fuel n : Nat) (first last out : It), n ≤ fuel → first.d = d → last.d = d → last.idx = first.idx + (n : Int) →
      copyLoop body' fuel first last out = Exec.ended (stdCopy body n first out)
  | 0, n, first, last, out, hn, h1, h2, h3 => by
    have : n = 0 := by omega
    subst this
    rw [copyLoop, stdCopy, ended_pure, loopEqual_iff (h1.trans h2.symm), if_pos (by simp; omega)]
  | fuel + 1, 0, first, last, out, hn, h1, h2, h3 => by
    rw [copyLoop, stdCopy, ended_pure, loopEqual_iff (h1.trans h2.symm), if_pos (by simp; omega)]
  | fuel + 1, n + 1, first, last, out, hn, h1, h2, h3 => by
    rw [copyLoop, stdCopy, ended_bind, loopEqual_iff (h1.trans h2.symm), if_neg (by simp; omega), hb _ _ h1, bind_ended]
    congr 1
    funext _
    exact copyLoop_eq hb fuel n first.increment last out.increment (by omega) h1 h2 (by show last.idx = first.idx + 1 + (n : Int); omega)

theorem forEachLoop_eq {σ : Type} {body : It → σ → Exec T σ} {body' : It → σ → Exec T (Option σ)} {d : Desc} (hb : ∀ i q, i.d = d → body' i q = Exec.ended (body i q)) :
    ∀ (fuel n : Nat) (first last : It) (q : σ), n ≤ fuel → first.d = d → last.d = d → last.idx = first.idx + (n : Int) →
      forEachLoop body' fuel first last q = Exec.ended (stdForEach body n first q)
  | 0, n, first, last, q, hn, h1, h2, h3 => by
    have : n = 0 := by omega
    subst this
    rw [forEachLoop, stdForEach, ended_pure, loopEqual_iff (h1.trans h2.symm), if_pos (by simp; omega)]
  | fuel + 1, 0, first, last, q, hn, h1, h2, h3 => by
    rw [forEachLoop, stdForEach, ended_pure, loopEqual_iff (h1.trans h2.symm), if_pos (by simp; omega)]
  | fuel + 1, n + 1, first, last, q, hn, h1, h2, h3 => by
    rw [forEachLoop, stdForEach, ended_bind, loopEqual_iff (h1.trans h2.symm), if_neg (by simp; omega), hb _ _ h1, bind_ended]
    congr 1
    funext q'
    exact forEachLoop_eq hb fuel n first.increment last q' (by omega) h1 h2 (by show last.idx = first.idx + 1 + (n : Int); omega)

theorem equalLoop_eq {eqv : It → It → Exec T Bool} {eqv' : It → It → Exec T (Option Bool)} {d : Desc} (hb : ∀ i o, i.d = d → eqv' i o = Exec.ended (eqv i o)) :
    ∀ (fuel n : Nat) (first last out : It), n ≤ fuel → first.d = d → last.d = d → last.idx = first.idx + (n : Int) →
      equalLoop eqv' fuel first last out = Exec.ended (stdEqualX eqv n first out)
  | 0, n, first, last, out, hn, h1, h2, h3 => by
    have : n = 0 := by omega
    subst this
    rw [equalLoop, stdEqualX, ended_pure, loopEqual_iff (h1.trans h2.symm), if_pos (by simp; omega)]
  | fuel + 1, 0, first, last, out, hn, h1, h2, h3 => by
    rw [equalLoop, stdEqualX, ended_pure, loopEqual_iff (h1.trans h2.symm), if_pos (by simp; omega)]
  | fuel + 1, n + 1, first, last, out, hn, h1, h2, h3 => by
    rw [equalLoop, stdEqualX, ended_bind, loopEqual_iff (h1.trans h2.symm), if_neg (by simp; omega), hb _ _ h1, bind_ended]
    congr 1
    funext b
    cases b with
    | false => rw [if_neg (by simp), ended_pure]
    | true =>
      rw [if_pos rfl]
      exact equalLoop_eq hb fuel n first.increment last out.increment (by omega) h1 h2 (by show last.idx = first.idx + 1 + (n : Int); omega)

theorem lexLoop_eq {lt : It → It → Exec T Bool} {lt' : It → It → Exec T (Option Bool)} {d d' : Desc} (hb : ∀ i o, i.d = d → o.d = d' → lt' i o = Exec.ended (lt i o))
    (hb' : ∀ i o, i.d = d → o.d = d' → lt' o i = Exec.ended (lt o i)) :
    ∀ (fuel n m : Nat) (first last first' last' : It), n ≤ fuel → first.d = d → last.d = d → last.idx = first.idx + (n : Int) →
      first'.d = d' → last'.d = d' → last'.idx = first'.idx + (m : Int) →
      lexLoop lt' fuel first last first' last' = Exec.ended (stdLexCompareX lt n m first first')
  | fuel, n, 0, first, last, first', last', hn, h1, h2, h3, g1, g2, g3 => by
    have e2 : first'.equal last' = true := by rw [loopEqual_iff (g1.trans g2.symm)]; simp; omega
    have : stdLexCompareX lt n 0 first first' = pure false := by cases n <;> rfl
    rw [this, ended_pure]
    cases fuel <;> simp only [lexLoop, e2] <;> simp
  | fuel, 0, m + 1, first, last, first', last', hn, h1, h2, h3, g1, g2, g3 => by
    have e1 : first.equal last = true := by rw [loopEqual_iff (h1.trans h2.symm)]; simp; omega
    have e2 : first'.equal last' = false := by rw [loopEqual_iff (g1.trans g2.symm)]; simp; omega
    rw [stdLexCompareX, ended_pure]
    cases fuel <;> simp only [lexLoop, e1, e2] <;> simp
  | 0, n + 1, m + 1, first, last, first', last', hn, h1, h2, h3, g1, g2, g3 => by omega
  | fuel + 1, n + 1, m + 1, first, last, first', last', hn, h1, h2, h3, g1, g2, g3 => by
    have e1 : first.equal last = false := by rw [loopEqual_iff (h1.trans h2.symm)]; simp; omega
    have e2 : first'.equal last' = false := by rw [loopEqual_iff (g1.trans g2.symm)]; simp; omega
    rw [lexLoop, stdLexCompareX, ended_bind, if_pos (by rw [e1, e2]; rfl), hb _ _ h1 g1, bind_ended]
    congr 1
    funext b
    cases b with
    | true => rw [if_pos rfl, ended_pure]
    | false =>
      rw [if_neg (by simp), ended_bind]
      show lt' first' first >>= _ = _
      rw [hb' _ _ h1 g1, bind_ended]
      congr 1
      funext b
      cases b with
      | true => rw [if_pos rfl, ended_pure]
      | false =>
        rw [if_neg (by simp)]
        exact lexLoop_eq hb hb' fuel n m first.increment last first'.increment last' (by omega) h1 h2 (by show last.idx = first.idx + 1 + (n : Int); omega)
          g1 g2 (by show last'.idx = first'.idx + 1 + (m : Int); omega)

/-- No loop of an array with these extents takes more than `fuel` steps. -/
abbrev Enough (fuel : Nat) (d : Desc) : Prop := ∀ e ∈ d.extents, e ≤ fuel

theorem Enough.deref {fuel : Nat} {dbg : Bool} {i : It} {d d' : Desc} (hi : i.d = d) (h : Enough fuel d) (hd : i.deref dbg = .ok d') : Enough fuel d' := by
  obtain ⟨e, he⟩ := loopDeref_extents hd
  intro x hx
  exact h x (by rw [← hi, he]; simp [hx])

theorem copyDispatchLoop_eq (dbg : Bool) (elt : Ptr → Ptr → Exec T Unit) (fuel : Nat) : ∀ (n : Nat) (src dst : Desc), Enough fuel src →
    copyDispatchLoop dbg elt fuel n src dst = Exec.ended (copyDispatchW dbg elt n src dst)
  | 0, src, dst, _ => rfl
  | n + 1, src, dst, h => by
    rw [copyDispatchLoop, copyDispatchW, ended_bind]
    refine lift_bind_congr (fun first h1 => ?_)
    rw [ended_bind]
    refine lift_bind_congr (fun last h2 => ?_)
    rw [ended_bind]
    refine lift_bind_congr (fun out _ => ?_)
    obtain ⟨k1, bs, _⟩ := loopBegin_ok h1
    obtain ⟨k2, e, es, k3, k4⟩ := loopEnd_ok h1 h2
    rw [loopSub_toNat k4]
    refine copyLoop_eq (d := src) (fun i o hi => ?_) fuel e first last out (h e (by rw [k3]; simp)) k1 k2 k4
    rw [ended_bind]
    refine lift_bind_congr (fun s hs => ?_)
    rw [ended_bind]
    exact lift_bind_congr (fun d _ => copyDispatchLoop_eq dbg elt fuel n s d (h.deref hi hs))

theorem assignRefLoop_eq (dbg : Bool) (elt : Ptr → Ptr → Exec T Unit) (fuel : Nat) : ∀ (n : Nat) (dst src : Desc), Enough fuel src →
    assignRefLoop dbg elt fuel n dst src = Exec.ended (assignRefW dbg elt n dst src)
  | 0, src, dst, _ => rfl
  | n + 1, dst, src, h => by
    rw [assignRefLoop, assignRefW, ended_bind]
    refine lift_bind_congr (fun _ _ => ?_)
    rw [ended_bind]
    refine lift_bind_congr (fun _ _ => ?_)
    rw [ended_bind]
    refine lift_bind_congr (fun first h1 => ?_)
    rw [ended_bind]
    refine lift_bind_congr (fun last h2 => ?_)
    rw [ended_bind]
    refine lift_bind_congr (fun out _ => ?_)
    obtain ⟨k1, bs, _⟩ := loopBegin_ok h1
    obtain ⟨k2, e, es, k3, k4⟩ := loopEnd_ok h1 h2
    rw [loopSub_toNat k4]
    refine copyLoop_eq (d := src) (fun i o hi => ?_) fuel e first last out (h e (by rw [k3]; simp)) k1 k2 k4
    rw [ended_bind]
    refine lift_bind_congr (fun s hs => ?_)
    rw [ended_bind]
    exact lift_bind_congr (fun d _ => assignRefLoop_eq dbg elt fuel n d s (h.deref hi hs))

theorem forEachXLoop_eq {σ : Type} (dbg : Bool) (f : σ → T → Exec T (T × σ)) (fuel : Nat) : ∀ (n : Nat) (a : Desc) (q : σ), Enough fuel a →
    forEachXLoop dbg f fuel n a q = Exec.ended (forEachX dbg f n a q)
  | 0, a, q, _ => by
    rw [forEachXLoop, forEachX]
    simp only [ended_bind, ended_pure]
  | n + 1, a, q, h => by
    rw [forEachXLoop, forEachX, ended_bind]
    refine lift_bind_congr (fun first h1 => ?_)
    rw [ended_bind]
    refine lift_bind_congr (fun last h2 => ?_)
    obtain ⟨k1, bs, _⟩ := loopBegin_ok h1
    obtain ⟨k2, e, es, k3, k4⟩ := loopEnd_ok h1 h2
    rw [loopSub_toNat k4]
    refine forEachLoop_eq (d := a) (fun i q hi => ?_) fuel e first last q (h e (by rw [k3]; simp)) k1 k2 k4
    rw [ended_bind]
    exact lift_bind_congr (fun s hs => forEachXLoop_eq dbg f fuel n s q (h.deref hi hs))

theorem equalRefLoop_eq (dbg : Bool) (elt : Ptr → Ptr → Exec T Bool) (fuel : Nat) : ∀ (n : Nat) (a b : Desc), Enough fuel a →
    equalRefLoop dbg elt fuel n a b = Exec.ended (equalRefX dbg elt n a b)
  | 0, a, b, _ => rfl
  | n + 1, a, b, h => by
    rw [equalRefLoop, equalRefX]
    by_cases he : a.extents = b.extents
    · rw [if_pos he, if_pos he, ended_bind]
      refine lift_bind_congr (fun first h1 => ?_)
      rw [ended_bind]
      refine lift_bind_congr (fun last h2 => ?_)
      rw [ended_bind]
      refine lift_bind_congr (fun out _ => ?_)
      obtain ⟨k1, bs, _⟩ := loopBegin_ok h1
      obtain ⟨k2, e, es, k3, k4⟩ := loopEnd_ok h1 h2
      rw [loopSub_toNat k4]
      refine equalLoop_eq (d := a) (fun i o hi => ?_) fuel e first last out (h e (by rw [k3]; simp)) k1 k2 k4
      rw [ended_bind]
      refine lift_bind_congr (fun s hs => ?_)
      rw [ended_bind]
      exact lift_bind_congr (fun d _ => equalRefLoop_eq dbg elt fuel n s d (h.deref hi hs))
    · rw [if_neg he, if_neg he, ended_pure]

theorem lessRefLoop_eq (dbg : Bool) (elt : Ptr → Ptr → Exec T Bool) (fuel : Nat) : ∀ (n : Nat) (a b : Desc), Enough fuel a → Enough fuel b →
    lessRefLoop dbg elt fuel n a b = Exec.ended (lessRefX dbg elt n a b)
  | 0, a, b, _, _ => rfl
  | n + 1, a, b, h, h' => by
    rw [lessRefLoop, lessRefX, ended_bind]
    refine lift_bind_congr (fun first h1 => ?_)
    rw [ended_bind]
    refine lift_bind_congr (fun last h2 => ?_)
    rw [ended_bind]
    refine lift_bind_congr (fun first' h1' => ?_)
    rw [ended_bind]
    refine lift_bind_congr (fun last' h2' => ?_)
    obtain ⟨k1, bs, _⟩ := loopBegin_ok h1
    obtain ⟨k2, e, es, k3, k4⟩ := loopEnd_ok h1 h2
    obtain ⟨k1', bs', _⟩ := loopBegin_ok h1'
    obtain ⟨k2', e', es', k3', k4'⟩ := loopEnd_ok h1' h2'
    rw [loopSub_toNat k4, loopSub_toNat k4']
    refine lexLoop_eq (d := a) (d' := b) (fun i o hi ho => ?_) (fun i o hi ho => ?_) fuel e e' first last first' last' (h e (by rw [k3]; simp)) k1 k2 k4 k1' k2' k4'
    · rw [ended_bind]
      refine lift_bind_congr (fun s hs => ?_)
      rw [ended_bind]
      exact lift_bind_congr (fun d hd => lessRefLoop_eq dbg elt fuel n s d (h.deref hi hs) (h'.deref ho hd))
    · rw [ended_bind]
      refine lift_bind_congr (fun s hs => ?_)
      rw [ended_bind]
      exact lift_bind_congr (fun d hd => lessRefLoop_eq dbg elt fuel n s d (h'.deref ho hs) (h.deref hi hd))

theorem mkConvertLoop_eq (dbg : Bool) (dflt : T) (fuel : Nat) (rhs : Desc) (so : StorageOrder) (alloc : Nat) (h : Enough fuel rhs) :
    mkConvertLoop dbg dflt fuel rhs so alloc = Exec.ended (MArr.mkConvert dbg dflt rhs so alloc) := by
  unfold mkConvertLoop MArr.mkConvert
  rw [ended_bind]
  refine lift_bind_congr (fun ref _ => ?_)
  rw [ended_bind]
  congr 1
  funext a
  rw [ended_bind]
  refine lift_bind_congr (fun first h1 => ?_)
  rw [ended_bind]
  refine lift_bind_congr (fun last h2 => ?_)
  rw [ended_bind]
  refine lift_bind_congr (fun out _ => ?_)
  obtain ⟨k1, bs, _⟩ := loopBegin_ok h1
  obtain ⟨k2, e, es, k3, k4⟩ := loopEnd_ok h1 h2
  rw [loopSub_toNat k4, ended_bind]
  have := copyLoop_eq (body := fun i o => do
      let s ← Exec.lift (i.deref dbg)
      let d ← Exec.lift (o.deref dbg)
      (assignRef dbg (rhs.extents.length - 1) d s : Exec T Unit)) (body' := fun i o => do
      let s ← Exec.lift (i.deref dbg)
      let d ← Exec.lift (o.deref dbg)
      assignRefLoop dbg eltCopy fuel (rhs.extents.length - 1) d s) (d := rhs) (fun i o hi => by
        rw [ended_bind]
        refine lift_bind_congr (fun s hs => ?_)
        rw [ended_bind]
        exact lift_bind_congr (fun d _ => assignRefLoop_eq dbg eltCopy fuel _ d s (h.deref hi hs))) fuel e first last out (h e (by rw [k3]; simp)) k1 k2 k4
  rw [this, bind_ended]
  simp only [ended_pure]

end MultiArray
