import Verif.Lemmas.Seq
import Verif.Props.Iter
import Verif.Props.Flat

/- Property theorems C75: iterator algorithms on one-dimensional arrays, rows and views. -/
set_option autoImplicit false

namespace MultiArray.Props
open MultiArray MultiArray.Spec
variable {T α : Type}

/-- `d` is a one-dimensional array, subarray or view, obtained in any way, of an array whose elements are alive. -/
def LiveRow (s : St T) (d : Desc) (e : Nat) : Prop :=
  d.extents = [e] ∧ ∃ n root, Reachable n root ∧ Handle root d ∧ Live s root

theorem LiveRow.shape {s : St T} {d : Desc} {e : Nat} (h : LiveRow s d e) : ∃ p st b, d = ⟨p, [e], [st], [b]⟩ := by
  obtain ⟨he, n, root, hr, hh, _⟩ := h
  have hw := handle_wellShaped hr hh
  obtain ⟨st, ss, b, bs, hd⟩ := wellShaped_cons hw he
  have h1 := hw.1
  have h2 := hw.2
  rw [hd] at h1 h2
  simp only [List.length_cons, List.length_nil] at h1 h2
  have e1 : ss = [] := List.length_eq_zero_iff.mp (by omega)
  have e2 : bs = [] := List.length_eq_zero_iff.mp (by omega)
  exact ⟨d.base, st, b, by rw [hd, e1, e2]⟩

theorem inBox_one (b : Int) (e i : Nat) (h : i < e) : InBox [b] [e] [b + (i : Int)] := by
  simp [InBox]; omega

theorem address_one (p : Ptr) (e : Nat) (s b : Int) (i : Nat) :
    address ⟨p, [e], [s], [b]⟩ (atPos [b] [i]) = p.add ((b + (i : Int)) * s) := by
  simp [address, atPos, dot]

theorem LiveRow.live {s : St T} {e : Nat} {p : Ptr} {st b : Int} (h : LiveRow s ⟨p, [e], [st], [b]⟩ e) (i : Nat) (hi : i < e) :
    ∃ v, s.get? (p.add ((b + (i : Int)) * st)) = some v := by
  obtain ⟨_, n, root, hr, hh, hl⟩ := h
  have := hl.handle hr.wf hh (inBox_one b e i hi)
  rw [← address_one p e st b i]
  simpa [atPos] using this

theorem LiveRow.inj {s : St T} {e : Nat} {p : Ptr} {st b : Int} (h : LiveRow s ⟨p, [e], [st], [b]⟩ e) (i j : Nat) (hi : i < e)
    (hj : j < e) (heq : p.add ((b + (i : Int)) * st) = p.add ((b + (j : Int)) * st)) : i = j := by
  obtain ⟨_, n, root, hr, hh, hl⟩ := h
  have := hh.address_inj hr.wf (inBox_one b e i hi) (inBox_one b e j hj) (by
    have e1 := address_one p e st b i
    have e2 := address_one p e st b j
    simp only [atPos, List.zipWith_cons_cons, List.zipWith_nil_right] at e1 e2
    rw [e1, e2, heq])
  simpa using this

theorem get?_of_cell {s s' : St T} {p : Ptr} {v : T} (h : ∀ x, s'.cell? x = if x = p then some (.obj v) else s.cell? x) (x : Ptr) :
    s'.get? x = if x = p then some v else s.get? x := by
  unfold St.get?
  rw [h x]
  by_cases hx : x = p
  · simp [hx]
  · simp [hx]

/-- The abstraction for any number of rows. -/
theorem placeSim (s : St T) (ds : Nat → Option Desc) (hds : ∀ c d, ds c = some d → ∃ e, LiveRow s d e) :
    SeqSim ds (placeSeqs (T := T) (fun c => (ds c).map elementPlaces))
      (fun st m => (∀ p, m.get? p = st p) ∧ ∀ p v, s.get? p = some v → ∃ v', m.get? p = some v') := by
  have hlen : ∀ c e, (placeSeqs (T := T) (fun c => (ds c).map elementPlaces)).len c = some e →
      ∃ p st b, ds c = some ⟨p, [e], [st], [b]⟩ ∧ LiveRow s ⟨p, [e], [st], [b]⟩ e := by
    intro c e h
    cases hd : ds c with
    | none => simp [placeSeqs, hd] at h
    | some d =>
      obtain ⟨e', hl⟩ := hds c d hd
      obtain ⟨p, st, b, rfl⟩ := hl.shape
      simp [placeSeqs, hd, elementPlaces] at h
      subst h
      exact ⟨p, st, b, rfl, hl⟩
  have hplace : ∀ c e p st b i, ds c = some ⟨p, [e], [st], [b]⟩ → i < e →
      (((ds c).map elementPlaces).bind (·[i]?)) = some (p.add ((b + (i : Int)) * st)) := by
    intro c e p st b i hd hi
    rw [hd]
    simp only [Option.map_some, Option.bind_some, elementPlaces, List.headD_cons]
    rw [List.getElem?_map, List.getElem?_range hi]
    simp only [Option.map_some]
    rw [address_one]
  refine ⟨fun c e h => by obtain ⟨p, st, b, h1, _⟩ := hlen c e h; exact ⟨p, st, b, h1⟩, ?_, ?_, ?_⟩
  · intro st m c e p s' b i v hm hl hd hi hg
    simp only [placeSeqs] at hg
    rw [hplace c e p s' b i hd hi] at hg
    rw [hm.1]; exact hg
  · intro st m c e p s' b i hm hl hd hi
    obtain ⟨p2, st2, b2, h1, h2⟩ := hlen c e hl
    rw [hd] at h1
    injection h1 with h1
    rw [← h1] at h2
    obtain ⟨v, hv⟩ := h2.live i hi
    exact hm.2 _ v hv
  · intro st m m' c e p s' b i v hm hl hd hi hcell hb
    simp only [placeSeqs]
    rw [hplace c e p s' b i hd hi]
    have hg := get?_of_cell hcell
    constructor
    · intro x
      rw [hg x]
      by_cases hx : x = p.add ((b + (i : Int)) * s')
      · simp [hx]
      · simp only [if_neg hx]; exact hm.1 x
    · intro x w hw
      rw [hg x]
      by_cases hx : x = p.add ((b + (i : Int)) * s')
      · exact ⟨v, by simp [hx]⟩
      · simp only [if_neg hx]; exact hm.2 x w hw

theorem regsRel_none {S : Type} (ds : Nat → Option Desc) (q : Seqs T S) : RegsRel ds q (fun _ => none) (fun _ => none) := by
  intro r sp h; cases h

/-- **C75.** Any algorithm that works through iterators and reverse iterators, on any number of one-dimensional arrays, rows and views, which may share
elements, gives the result it gives on plain sequences that share places in the same way, and leaves memory as that leaves the
places: nothing else changes, and nothing is undefined as long as the algorithm respects the bounds of the plain sequences. -/
theorem C75_algorithms_on_rows (dbg : Bool) (s : St T) (ds : Nat → Option Desc) (hds : ∀ c d, ds c = some d → ∃ e, LiveRow s d e)
    (alg : IAlg T α) :
    (∀ a S' sc, alg.run (placeSeqs (fun c => (ds c).map elementPlaces)) (fun _ => none) s.get? s.sched = .done a S' sc →
      ∃ s', alg.exec dbg ds (fun _ => none) s = .ok a s' ∧ (∀ p, s'.get? p = S' p) ∧ s'.sched = sc ∧ SameStorage s s') ∧
    (∀ S' sc, alg.run (placeSeqs (fun c => (ds c).map elementPlaces)) (fun _ => none) s.get? s.sched = .threw S' sc →
      ∃ s', alg.exec dbg ds (fun _ => none) s = .throw s' ∧ (∀ p, s'.get? p = S' p) ∧ s'.sched = sc ∧ SameStorage s s') := by
  have h := exec_agrees (placeSim s ds hds) dbg alg (fun _ => none) (fun _ => none) s.get? s (regsRel_none _ _)
    ⟨fun _ => rfl, fun p v h => ⟨v, h⟩⟩
  constructor
  · intro a S' sc hrun
    rw [hrun] at h
    obtain ⟨s', h1, h2, h3, h4⟩ := h
    exact ⟨s', h1, h2.1, h3, h4.sameStorage⟩
  · intro S' sc hrun
    rw [hrun] at h
    obtain ⟨s', h1, h2, h3, h4⟩ := h
    exact ⟨s', h1, h2.1, h3, h4.sameStorage⟩

/-- The abstraction for one row. -/
theorem listSim (s : St T) (d : Desc) (e : Nat) (hd : LiveRow s d e) :
    SeqSim (fun c => if c = 0 then some d else none) (oneList (T := T) e)
      (fun xs m => xs.length = e ∧ (∀ k : Nat, k < e → elemAt m d [k] = xs[k]?) ∧ (∀ p, Outside d p → m.cell? p = s.cell? p)) := by
  obtain ⟨p, st, b, rfl⟩ := hd.shape
  have hlen : ∀ c e', (oneList (T := T) e).len c = some e' → c = 0 ∧ e' = e := by
    intro c e' h
    simp only [oneList] at h
    split at h
    · rename_i hc; injection h with h; exact ⟨hc, h.symm⟩
    · cases h
  have hsame : ∀ c e' p' s' b', (if c = 0 then some (⟨p, [e], [st], [b]⟩ : Desc) else none) = some ⟨p', [e'], [s'], [b']⟩ →
      p' = p ∧ s' = st ∧ b' = b := by
    intro c e' p' s' b' h
    split at h
    · injection h with h
      simp only [Desc.mk.injEq, List.cons.injEq, and_true] at h
      exact ⟨h.1.symm, h.2.2.1.symm, h.2.2.2.symm⟩
    · cases h
  refine ⟨?_, ?_, ?_, ?_⟩
  · intro c e' h
    obtain ⟨rfl, rfl⟩ := hlen c e' h
    exact ⟨p, st, b, rfl⟩
  · intro xs m c e' p' s' b' i v hm hl hdd hi hg
    obtain ⟨rfl, rfl⟩ := hlen c e' hl
    obtain ⟨rfl, rfl, rfl⟩ := hsame 0 _ p' s' b' hdd
    have h2 := hm.2.1 i hi
    unfold elemAt at h2
    simp only at h2
    rw [address_one] at h2
    rw [h2]; exact hg
  · intro xs m c e' p' s' b' i hm hl hdd hi
    obtain ⟨rfl, rfl⟩ := hlen c e' hl
    obtain ⟨rfl, rfl, rfl⟩ := hsame 0 _ p' s' b' hdd
    have h2 := hm.2.1 i hi
    unfold elemAt at h2
    simp only at h2
    rw [address_one] at h2
    exact ⟨xs[i]'(by omega), by rw [h2, List.getElem?_eq_getElem]⟩
  · intro xs m m' c e' p' s' b' i v hm hl hdd hi hcell hb
    obtain ⟨rfl, rfl⟩ := hlen c e' hl
    obtain ⟨rfl, rfl, rfl⟩ := hsame 0 _ p' s' b' hdd
    have hg := get?_of_cell hcell
    refine ⟨by simp [oneList, hm.1], ?_, ?_⟩
    · intro k hk
      have h2 := hm.2.1 k hk
      unfold elemAt at h2 ⊢
      simp only at h2 ⊢
      rw [address_one] at h2 ⊢
      rw [hg]
      simp only [oneList]
      by_cases hki : k = i
      · subst hki
        rw [if_pos rfl, List.getElem?_set_self (by omega)]
      · rw [if_neg (fun hx => hki (hd.inj k i hk hi hx)), List.getElem?_set_ne (fun hx => hki hx.symm)]
        exact h2
    · intro x hx
      rw [hcell]
      refine (if_neg ?_).trans (hm.2.2 x hx)
      intro hxe
      have := hx [b' + (i : Int)] (inBox_one b' _ i hi)
      apply this
      rw [hxe, ← address_one p' _ s' b' i]
      rfl

/-- **C75.** On one array, row or view with elements `xs`: the algorithm gives the result it gives on the list `xs`; afterwards the elements are the
resulting list, and nothing outside the row has changed. -/
theorem C75_algorithms_on_one_row (dbg : Bool) (s : St T) (d : Desc) (e : Nat) (hd : LiveRow s d e) (alg : IAlg T α) (xs : List T)
    (hx : xs.length = e) (hxs : ∀ k : Nat, k < e → elemAt s d [k] = xs[k]?) :
    (∀ a xs' sc, alg.run (oneList e) (fun _ => none) xs s.sched = .done a xs' sc →
      ∃ s', alg.exec dbg (fun c => if c = 0 then some d else none) (fun _ => none) s = .ok a s' ∧ xs'.length = e ∧
        (∀ k : Nat, k < e → elemAt s' d [k] = xs'[k]?) ∧ (∀ p, Outside d p → s'.cell? p = s.cell? p) ∧ s'.sched = sc ∧ SameStorage s s') ∧
    (∀ xs' sc, alg.run (oneList e) (fun _ => none) xs s.sched = .threw xs' sc →
      ∃ s', alg.exec dbg (fun c => if c = 0 then some d else none) (fun _ => none) s = .throw s' ∧ xs'.length = e ∧
        (∀ k : Nat, k < e → elemAt s' d [k] = xs'[k]?) ∧ (∀ p, Outside d p → s'.cell? p = s.cell? p) ∧ s'.sched = sc ∧ SameStorage s s') := by
  have h := exec_agrees (listSim s d e hd) dbg alg (fun _ => none) (fun _ => none) xs s (regsRel_none _ _)
    ⟨hx, hxs, fun _ _ => rfl⟩
  constructor
  · intro a S' sc hrun
    rw [hrun] at h
    obtain ⟨s', h1, h2, h3, h4⟩ := h
    exact ⟨s', h1, h2.1, h2.2.1, h2.2.2, h3, h4.sameStorage⟩
  · intro S' sc hrun
    rw [hrun] at h
    obtain ⟨s', h1, h2, h3, h4⟩ := h
    exact ⟨s', h1, h2.1, h2.2.1, h2.2.2, h3, h4.sameStorage⟩

theorem oneList_get (e : Nat) (xs : List T) (i : Nat) : (oneList (T := T) e).get xs 0 i = xs[i]? := rfl
theorem oneList_put (e : Nat) (xs : List T) (i : Nat) (v : T) : (oneList (T := T) e).put xs 0 i v = xs.set i v := rfl
theorem oneList_len (e : Nat) : (oneList (T := T) e).len 0 = some e := rfl

/-- The loop of `std::reverse` reverses the segment between the two positions. -/
theorem reverseLoop_run (e : Nat) : ∀ (fuel : Nat) (xs : List T) (ps : Nat → Option SPos) (i j : Nat), xs.length = e → i ≤ j → j ≤ e →
    ps 0 = some ⟨0, false, i⟩ → ps 1 = some ⟨0, false, j⟩ → j - i < 2 * fuel →
    ∃ xs', (reverseLoop fuel).run (oneList e) ps xs [] = .done true xs' [] ∧ xs'.length = e ∧
      ∀ k : Nat, k < e → xs'[k]? = if i ≤ k ∧ k < j then xs[i + j - 1 - k]? else xs[k]? := by
  intro fuel
  induction fuel with
  | zero => intro xs ps i j _ _ _ _ _ hf; omega
  | succ fuel ih =>
    intro xs ps i j hx hij hje h0 h1 hf
    simp only [reverseLoop, IAlg.run, h0, h1, Seqs.both, Option.bind_some, and_self, if_true, SRes.ofOption]
    by_cases hc : i = j
    · subst hc
      refine ⟨xs, by simp [IAlg.run], hx, fun k _ => ?_⟩
      rw [if_neg (by omega)]
    · rw [decide_eq_false hc]
      simp only [Bool.false_eq_true, if_false, IAlg.run, h1, Option.bind_some, Seqs.moved, oneList_len]
      rw [if_pos ⟨by omega, by omega⟩]
      have hj : ((j : Int) + -1).toNat = j - 1 := by omega
      simp only [SRes.ofOption, hj]
      generalize hps : Seqs.setPos ps 1 (⟨0, false, j - 1⟩ : SPos) = ps'
      have h0' : ps' 0 = some ⟨0, false, i⟩ := by rw [← hps, ← h0]; rfl
      have h1' : ps' 1 = some ⟨0, false, j - 1⟩ := by rw [← hps]; rfl
      simp only [Seqs.both, h0', h1', if_true, Option.bind_some, and_self]
      by_cases hc2 : i = j - 1
      · rw [decide_eq_true hc2]
        refine ⟨xs, by simp [IAlg.run], hx, fun k _ => ?_⟩
        by_cases hk : i ≤ k ∧ k < j
        · rw [if_pos hk, show i + j - 1 - k = k by omega]
        · rw [if_neg hk]
      · rw [decide_eq_false hc2]
        have hi : i < e := by omega
        have hj1 : j - 1 < e := by omega
        have hv0 : (ps' 0).bind ((oneList e).valueAt xs) = some (xs[i]'(by omega)) := by
          simp only [h0', Option.bind_some, Seqs.valueAt, Seqs.elem, oneList_len, if_pos hi, Bool.false_eq_true, if_false, oneList_get]
          exact List.getElem?_eq_getElem (by omega)
        have hv1 : (ps' 1).bind ((oneList e).valueAt xs) = some (xs[j - 1]'(by omega)) := by
          simp only [h1', Option.bind_some, Seqs.valueAt, Seqs.elem, oneList_len, if_pos hj1, Bool.false_eq_true, if_false, oneList_get]
          exact List.getElem?_eq_getElem (by omega)
        have he0 : (ps' 0).bind (fun p => ((oneList (T := T) e).elem p).map (fun i => (p.seq, i))) = some (0, i) := by
          simp only [h0', Option.bind_some, Seqs.elem, oneList_len, if_pos hi, Bool.false_eq_true, if_false, Option.map_some]
        have he1 : (ps' 1).bind (fun p => ((oneList (T := T) e).elem p).map (fun i => (p.seq, i))) = some (0, j - 1) := by
          simp only [h1', Option.bind_some, Seqs.elem, oneList_len, if_pos hj1, Bool.false_eq_true, if_false, Option.map_some]
        have hm0 : (ps' 0).bind (fun p => (oneList (T := T) e).moved p 1) = some ⟨0, false, i + 1⟩ := by
          simp only [h0', Option.bind_some, Seqs.moved, oneList_len]
          rw [if_pos ⟨by omega, by omega⟩, show ((i : Int) + 1).toNat = i + 1 by omega]
        simp only [Bool.false_eq_true, if_false, IAlg.run, hv0, hv1, he0, he1, hm0, SRes.ofOption, oneList_put]
        obtain ⟨xs', a1, a2, a3⟩ := ih ((xs.set i xs[j - 1]).set (j - 1) xs[i])
          (Seqs.setPos ps' 0 ⟨0, false, i + 1⟩) (i + 1) (j - 1)
          (by simp [hx]) (by omega) (by omega) (by simp [Seqs.setPos]) (by simp [Seqs.setPos, h1']) (by omega)
        refine ⟨xs', a1, a2, fun k hk => ?_⟩
        rw [a3 k hk]
        by_cases hk1 : i + 1 ≤ k ∧ k < j - 1
        · rw [if_pos hk1, if_pos (show i ≤ k ∧ k < j by omega), show i + 1 + (j - 1) - 1 - k = i + j - 1 - k by omega,
            List.getElem?_set_ne (by omega), List.getElem?_set_ne (by omega)]
        · rw [if_neg hk1]
          by_cases hki : k = i
          · subst hki
            rw [if_pos (by omega), List.getElem?_set_ne (by omega), List.getElem?_set_self (by omega),
              show k + j - 1 - k = j - 1 by omega, List.getElem?_eq_getElem]
          · by_cases hkj : k = j - 1
            · subst hkj
              rw [if_pos (by omega), List.getElem?_set_self (by simp; omega), show i + j - 1 - (j - 1) = i by omega,
                List.getElem?_eq_getElem]
            · rw [if_neg (by omega), List.getElem?_set_ne (by omega), List.getElem?_set_ne (by omega)]

/-- **C75, an instance.** `std::reverse(row.begin(), row.end())` reverses the elements of any array, row, column or view of any stride and index base, and touches
nothing else. -/
theorem C75_std_reverse (dbg : Bool) (s : St T) (d : Desc) (e : Nat) (hd : LiveRow s d e) (hs : s.sched = []) :
    ∃ s', (stdReverse (e + 1)).exec dbg (fun c => if c = 0 then some d else none) (fun _ => none) s = .ok true s' ∧
      (∀ k : Nat, k < e → elemAt s' d [k] = elemAt s d [e - 1 - k]) ∧ (∀ p, Outside d p → s'.cell? p = s.cell? p) ∧ SameStorage s s' := by
  have hlive : ∀ k : Nat, k < e → ∃ v, elemAt s d [k] = some v := by
    intro k hk
    obtain ⟨p, st, b, rfl⟩ := hd.shape
    obtain ⟨v, hv⟩ := hd.live k hk
    exact ⟨v, by unfold elemAt; simp only; rw [address_one]; exact hv⟩
  let xs : List T := List.ofFn (fun k : Fin e => Classical.choose (hlive k.1 k.2))
  have hx : xs.length = e := by simp [xs]
  have hxs : ∀ k : Nat, k < e → elemAt s d [k] = xs[k]? := by
    intro k hk
    rw [Classical.choose_spec (hlive k hk)]
    simp [xs, hk]
  obtain ⟨xs', a1, a2, a3⟩ := reverseLoop_run e (e + 1) xs
    (Seqs.setPos (Seqs.setPos (fun _ => none) 0 ⟨0, false, 0⟩) 1 ⟨0, false, e⟩) 0 e hx (Nat.zero_le _) (Nat.le_refl _) rfl rfl (by omega)
  have hrun : (stdReverse (e + 1)).run (oneList e) (fun _ => none) xs s.sched = .done true xs' [] := by
    rw [hs]; exact a1
  obtain ⟨s', b1, b2, b3, b4, b5, b6⟩ := (C75_algorithms_on_one_row dbg s d e hd (stdReverse (e + 1)) xs hx hxs).1 true xs' [] hrun
  refine ⟨s', b1, fun k hk => ?_, b4, b6⟩
  rw [b3 k hk, a3 k hk, if_pos ⟨Nat.zero_le _, hk⟩, hxs _ (by omega)]
  congr 1
  omega

/-! ### Non-vacuity -/

theorem ovArr_reach : Reachable 1 ovArr := .ofExtents (n := 1) (p := ⟨1, 0⟩) (exts := [3]) (cOrder_valid 1) rfl

/-- `range(2, -1, -2)`: elements 2 and 0. -/
def exBack : IndexGen := ⟨1, 1, [IndexRange.mk3 2 (-1) (-2)]⟩

/-- Reversing a view with stride -2 of a three-element array exchanges its outer elements. -/
example : ∃ v s', ovArr.desc.slice true exBack = .ok v ∧ LiveRow ovSt v.desc 2 ∧
    (stdReverse 3).exec true (fun c => if c = 0 then some v.desc else none) (fun _ => none) ovSt = .ok true s' ∧
    (List.range 3).map (fun k => elemAt s' ovArr.desc [k]) = [some 30, some 20, some 10] := by
  have h : LiveRow ovSt (theView exBack ovArr.desc).desc 2 :=
    ⟨rfl, 1, ovArr, ovArr_reach, handle_view ovArr_reach.wf (g := exBack) .array (by decide) (.range .empty rfl) rfl rfl .refl, ovSt_live⟩
  obtain ⟨s', h1, h2, h3, _⟩ := C75_std_reverse true ovSt _ 2 h rfl
  refine ⟨theView exBack ovArr.desc, s', rfl, h, h1, ?_⟩
  have a0 : elemAt s' ovArr.desc [2] = some 10 := h2 0 (by decide)
  have a1 : elemAt s' ovArr.desc [0] = some 30 := h2 1 (by decide)
  have a2 : elemAt s' ovArr.desc [1] = some 20 := by
    have : s'.cell? ⟨1, 1⟩ = some (.obj 20) := h3 ⟨1, 1⟩ (by
      intro idx hidx heq
      match idx, hidx with
      | [i], hi =>
        have hi1 : (0 : Int) ≤ i := hi.1
        have hi2 : i < 0 + 2 := hi.2.1
        have h' : (1 : Int) = 2 + (i * (-2) + 0) := congrArg Ptr.off heq
        omega)
    show s'.get? ⟨1, 1⟩ = _
    rw [St.get?_eq_some]; exact this
  show [elemAt s' ovArr.desc [0], elemAt s' ovArr.desc [1], elemAt s' ovArr.desc [2]] = _
  rw [a0, a1, a2]

/-- Copying between two overlapping views through a reverse and a forward iterator: hypotheses and result of `C75_algorithms_on_rows`. -/
example : ∃ v1 v2 s', ovArr.desc.slice true (rowsGen 0 0 2) = .ok v1 ∧ ovArr.desc.slice true (rowsGen 0 1 3) = .ok v2 ∧
    (∀ c d, (fun c => if c = 0 then some v1.desc else if c = 1 then some v2.desc else none) c = some d → ∃ e, LiveRow ovSt d e) ∧
    (IAlg.rbegin 0 0 (.begin 1 1 (.readAt 0 1 (fun x => .write 1 (x + 1) (.inc 1 (.read 1 (fun y => .write 0 y (.diff 1 0 .ret)))))))
      : IAlg Nat Int).exec true (fun c => if c = 0 then some v1.desc else if c = 1 then some v2.desc else none) (fun _ => none) ovSt = .ub ∧
    (IAlg.rbegin 0 0 (.begin 1 1 (.readAt 0 1 (fun x => .write 1 (x + 1) (.inc 1 (.read 1 (fun y => .write 0 y (.ret x)))))))
      : IAlg Nat Nat).exec true (fun c => if c = 0 then some v1.desc else if c = 1 then some v2.desc else none) (fun _ => none) ovSt = .ok 10 s' ∧
    (List.range 3).map (fun k => elemAt s' ovArr.desc [k]) = [some 10, some 30, some 30] := by
  refine ⟨_, _, _, rfl, rfl, ?_, rfl, rfl, rfl⟩
  intro c d h
  refine ⟨2, ?_⟩
  dsimp only at h
  split at h
  · injection h with h
    subst h
    exact ⟨rfl, 1, ovArr, ovArr_reach, handle_view ovArr_reach.wf (g := rowsGen 0 0 2) .array (by decide) (.range .empty rfl) rfl rfl .refl, ovSt_live⟩
  · split at h
    · injection h with h
      subst h
      exact ⟨rfl, 1, ovArr, ovArr_reach, handle_view ovArr_reach.wf (g := rowsGen 0 1 3) .array (by decide) (.range .empty rfl) rfl rfl .refl, ovSt_live⟩
    · cases h

end MultiArray.Props
