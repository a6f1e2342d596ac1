import Verif.SpecShareX
import Verif.Lemmas.ShareElems
import Verif.Lemmas.ProgThrow
import Verif.Lemmas.Mono

/- Programs with shared storage, with exceptions. -/
set_option autoImplicit false

namespace MultiArray
open Spec Props
variable {T : Type} {g : Ghost}

/-- The running program `w` represents `A`, with the blocks `L` leaked and any exceptions due. -/
def InvS (L : List Nat) (w : SWorld T) (A : SState T) : Prop := ∃ t g, Calm L w.st t ∧ RepG g (⟨w.vars, t⟩ : SWorld T) A

/-- The allocation counter grows. -/
theorem RepG.reheap {o : Nat → Option CVar} {t t' : St T} {A : SState T} (h : RepG g (⟨o, t⟩ : SWorld T) A) (hh : t'.heap = t.heap) (hn : t.next ≤ t'.next)
    (hs : SaneHeap t') (hsched : t'.sched = []) : RepG g (⟨o, t'⟩ : SWorld T) A := by
  refine ⟨⟨hs, hsched, fun i hi => ?_, h.mem.inj, fun i hi => ?_, h.mem.fresh, fun b hb => ?_⟩, h.var, h.uniq, h.owned⟩
  · have := h.mem.pos i hi
    exact ⟨this.1, Nat.lt_of_lt_of_le this.2 hn⟩
  · show t'.heap _ = _
    rw [hh]; exact h.mem.val i hi
  · exact h.mem.noLeak b (by show t.heap b ≠ none; rw [← hh]; exact hb)

/-- An exception during allocation leaves at most one new block behind. -/
theorem throw_allocS {L : List Nat} {o : Nat → Option CVar} {s s' t : St T} {A : SState T} (hc : Calm L s t) (hr : RepG g (⟨o, t⟩ : SWorld T) A)
    (hse : SameExcept s.next s s') (hsane : SaneHeap s') (hmono : s.next ≤ s'.next) :
    ∃ L' t', L'.length ≤ L.length + 1 ∧ Calm L' s' t' ∧ RepG g (⟨o, t'⟩ : SWorld T) A := by
  have hts := hr.mem.sane
  have hnew : t.heap s.next = none := hts.2 _ (by show t.next ≤ _; rw [hc.next])
  have hL : ∀ b ∈ L, t.heap b = none ∧ s'.heap b ≠ none ∧ b < s'.next := by
    intro b hb
    obtain ⟨e1, e2, e3⟩ := hc.leaked b hb
    have he : s'.heap b ≠ none := by rw [hse b (by omega)]; exact e2
    exact ⟨e1, he, by omega⟩
  have ht' : SaneHeap ({ t with next := s'.next } : St T) := by
    refine ⟨hsane.1, fun b hb => ?_⟩
    show t.heap b = none
    exact hts.2 b (by show t.next ≤ _; rw [hc.next]; exact Nat.le_trans hmono hb)
  have hrep := hr.reheap (t' := { t with next := s'.next }) rfl (by rw [hc.next]; exact hmono) ht' hr.mem.sched
  by_cases hnone : s'.heap s.next = none
  · refine ⟨L, { t with next := s'.next }, by omega, ⟨hr.mem.sched, rfl, hL, fun b hb => ?_⟩, hrep⟩
    show t.heap b = s'.heap b
    by_cases hbn : b = s.next
    · rw [hbn, hnew, hnone]
    · rw [hse b hbn]; exact hc.same b hb
  · refine ⟨s.next :: L, { t with next := s'.next }, by simp, ⟨hr.mem.sched, rfl, fun b hb => ?_, fun b hb => ?_⟩, hrep⟩
    · rcases List.mem_cons.mp hb with rfl | hb
      · refine ⟨hnew, hnone, ?_⟩
        by_contra hn
        exact hnone (hsane.2 _ (by omega))
      · exact hL b hb
    · rw [List.mem_cons, not_or] at hb
      show t.heap b = s'.heap b
      rw [hse b hb.1]; exact hc.same b hb.2

/-! ### Elements -/

/-- One element assignment: completes, or throws and leaves some value. -/
theorem put_s {L : List Nat} {o : Nat → Option CVar} {s t : St T} {A : SState T} (hc : Calm L s t) (hr : RepG g (⟨o, t⟩ : SWorld T) A) {d : Desc} {p : SPart}
    (hp : PlaceRep g A.stores A.count d p) (hlive : A.stores p.store ≠ none) {idx : List Int} (hin : InBox p.bases p.extents idx) (v : T) :
    (∃ s1 t1 A1, assignCell (address d idx) v s = .ok () s1 ∧ A.put p idx v = some A1 ∧ Calm L s1 t1 ∧ RepG g (⟨o, t1⟩ : SWorld T) A1 ∧ SameShape A A1) ∨
    (∃ s1 t1 A1 junk, assignCell (address d idx) v s = .throw s1 ∧ A.put p idx junk = some A1 ∧ Calm L s1 t1 ∧ RepG g (⟨o, t1⟩ : SWorld T) A1) := by
  obtain ⟨u, g1, _⟩ := hr.get hp hlive hin
  simp only at g1
  have g2 := hc.get g1
  have hb := hc.blk (get?_heap g1)
  have key : ∀ (z : T) (fs : List (Option T)), ∃ t1 A1, A.put p idx z = some A1 ∧
      Calm L ({ s with sched := fs }.setCell (address d idx) (.obj z)) t1 ∧ RepG g (⟨o, t1⟩ : SWorld T) A1 ∧ SameShape A A1 := by
    intro z fs
    obtain ⟨t1, A1, p1, p2, p3, p4⟩ := hr.put hp hlive hin z
    refine ⟨t1, A1, p2, ?_, p3, p4⟩
    have : t1 = t.setCell (address d idx) (.obj z) := by
      unfold assignCell at p1
      simp only at p1
      rw [g1, hc.sched] at p1
      cases p1; rfl
    rw [this]
    exact hc.setCell hb _ fs
  cases hs : s.sched with
  | nil =>
    obtain ⟨t1, A1, k1, k2, k3, k4⟩ := key v s.sched
    have e : assignCell (address d idx) v s = .ok () (s.setCell (address d idx) (.obj v)) := by
      unfold assignCell; rw [g2, hs]
    exact .inl ⟨_, t1, A1, e, k1, k2, k3, k4⟩
  | cons f fs =>
    cases f with
    | none =>
      obtain ⟨t1, A1, k1, k2, k3, k4⟩ := key v fs
      exact .inl ⟨_, t1, A1, by unfold assignCell; rw [g2, hs], k1, k2, k3, k4⟩
    | some junk =>
      obtain ⟨t1, A1, k1, k2, k3, _⟩ := key junk fs
      exact .inr ⟨_, t1, A1, junk, by unfold assignCell; rw [g2, hs], k1, k2, k3⟩

/-- A computation that completes, or throws leaving a state that satisfies `P`. -/
def OkOrS (L : List Nat) (g : Ghost) (o : Nat → Option CVar) (s : St T) (e : Exec T Unit) (P : SState T → Prop) : Prop :=
  (∃ s', e s = .ok () s') ∨ (∃ s' t' A', e s = .throw s' ∧ P A' ∧ Calm L s' t' ∧ RepG g (⟨o, t'⟩ : SWorld T) A')

theorem copy_s {L : List Nat} {o : Nat → Option CVar} {s t : St T} {A : SState T} (hc : Calm L s t) (h : RepG g (⟨o, t⟩ : SWorld T) A) {d d' : Desc} {p q : SPart}
    (hp : PlaceRep g A.stores A.count d p) (hq : PlaceRep g A.stores A.count d' q) (lp : A.stores p.store ≠ none) (lq : A.stores q.store ≠ none)
    (he : p.extents = q.extents) (ks : List (List Nat)) (hks : ∀ k ∈ ks, InShape p.extents k) :
    OkOrS L g o s (copySeq (ks.map (fun k => (address d' (atPos d'.bases k), address d (atPos d.bases k))))) (fun A' =>
      ∃ done k rest A1 junk, ks = done ++ k :: rest ∧ SState.copy p q done A = some A1 ∧ A1.put p (atPos p.bases k) junk = some A') := by
  induction ks generalizing s t A with
  | nil => exact .inl ⟨s, rfl⟩
  | cons k ks ih =>
    have hk := hks k (by simp)
    obtain ⟨v, g1, g2⟩ := h.get hq lq (hq.inBox_atPos (by rw [← he]; exact hk))
    unfold OkOrS
    simp only [List.map_cons, copySeq]
    have hload : load (address d' (atPos d'.bases k)) s = .ok v s := by
      rw [hq.bases]; exact load_ok (hc.get g1)
    rw [Exec.bind_ok hload]
    have hdb := hp.bases
    rcases put_s hc h hp lp (hp.inBox_atPos hk) v with ⟨s1, t1, A1, p1, p2, p3, p4, p5⟩ | ⟨s1, t1, A1, junk, p1, p2, p3, p4⟩
    · rw [← hdb] at p1
      rw [Exec.bind_ok p1]
      rcases ih p3 p4 (hp.grow (p5.grow g)) (hq.grow (p5.grow g)) ((p5.live _).mpr lp) ((p5.live _).mpr lq) (fun k hk => hks k (by simp [hk])) with
        hok | ⟨s', t', A', i1, ⟨done, k', rest, A2, junk, i2, i3, i4⟩, i5, i6⟩
      · exact .inl hok
      · refine .inr ⟨s', t', A', i1, ⟨k :: done, k', rest, A2, junk, by rw [i2]; rfl, ?_, i4⟩, i5, i6⟩
        simp only [SState.copy, g2, Option.bind_some, p2]
        exact i3
    · rw [← hdb] at p1
      rw [Exec.bind_throw p1]
      exact .inr ⟨s1, t1, A1, rfl, ⟨[], k, ks, A, junk, rfl, rfl, p2⟩, p3, p4⟩

theorem map_s {L : List Nat} {o : Nat → Option CVar} {s t : St T} {A : SState T} (hc : Calm L s t) (h : RepG g (⟨o, t⟩ : SWorld T) A) {d : Desc} {p : SPart}
    (hp : PlaceRep g A.stores A.count d p) (lp : A.stores p.store ≠ none) (f : T → T) (ks : List (List Nat)) (hks : ∀ k ∈ ks, InShape p.extents k) :
    OkOrS L g o s (mapSeq f (ks.map (fun k => address d (atPos d.bases k)))) (fun A' =>
      ∃ done k rest A1 junk, ks = done ++ k :: rest ∧ SState.map p f done A = some A1 ∧ A1.put p (atPos p.bases k) junk = some A') := by
  induction ks generalizing s t A with
  | nil => exact .inl ⟨s, rfl⟩
  | cons k ks ih =>
    have hk := hks k (by simp)
    obtain ⟨v, g1, g2⟩ := h.get hp lp (hp.inBox_atPos hk)
    unfold OkOrS
    simp only [List.map_cons, mapSeq]
    have hload : load (address d (atPos d.bases k)) s = .ok v s := by
      rw [hp.bases]; exact load_ok (hc.get g1)
    rw [Exec.bind_ok hload]
    have hdb := hp.bases
    rcases put_s hc h hp lp (hp.inBox_atPos hk) (f v) with ⟨s1, t1, A1, p1, p2, p3, p4, p5⟩ | ⟨s1, t1, A1, junk, p1, p2, p3, p4⟩
    · rw [← hdb] at p1
      rw [Exec.bind_ok p1]
      rcases ih p3 p4 (hp.grow (p5.grow g)) ((p5.live _).mpr lp) (fun k hk => hks k (by simp [hk])) with
        hok | ⟨s', t', A', i1, ⟨done, k', rest, A2, junk, i2, i3, i4⟩, i5, i6⟩
      · exact .inl hok
      · refine .inr ⟨s', t', A', i1, ⟨k :: done, k', rest, A2, junk, by rw [i2]; rfl, ?_, i4⟩, i5, i6⟩
        simp only [SState.map, g2, Option.bind_some, p2]
        exact i3
    · rw [← hdb] at p1
      rw [Exec.bind_throw p1]
      exact .inr ⟨s1, t1, A1, rfl, ⟨[], k, ks, A, junk, rfl, rfl, p2⟩, p3, p4⟩

/-- Assignment and `copy_array` between parts. -/
theorem parts_s {L : List Nat} {o : Nat → Option CVar} {s t : St T} {A : SState T} (hc : Calm L s t) (h : RepG g (⟨o, t⟩ : SWorld T) A) (dbg : Bool) {d d' : Desc}
    {p q : SPart} (hp : PlaceRep g A.stores A.count d p) (hq : PlaceRep g A.stores A.count d' q) (lp : A.stores p.store ≠ none) (lq : A.stores q.store ≠ none)
    (he : p.extents = q.extents) :
    OkOrS L g o s (assignRef dbg d.extents.length d d') (fun A' => A.CopyStopped p q A') ∧
    OkOrS L g o s (copyArray dbg d' d) (fun A' => A.CopyStopped p q A') := by
  have hw := hp.shaped
  have hw' := hq.shaped
  have hde : d'.extents = d.extents := by rw [hp.extents, hq.extents, he]
  have key := copy_s hc h hp hq lp lq he (positions p.extents) (fun k hk => mem_positions_shape hk)
  rw [positions_eq, ← hp.extents, ← copyPairs_eq_map d' d hw' hw hde] at key
  have key' : OkOrS L g o s (copySeq (copyPairs d' d)) (fun A' => A.CopyStopped p q A') := by
    unfold SState.CopyStopped
    rw [positions_eq, ← hp.extents]
    exact key
  constructor
  · rw [assignRef_eq dbg _ _ hw hw' hde]; exact key'
  · unfold copyArray
    rw [decide_eq_true hde, assertE_true, pure_bind, copyDispatch_eq dbg _ _ hw hw' hde]; exact key'

theorem forEach_s {L : List Nat} {o : Nat → Option CVar} {s t : St T} {A : SState T} (hc : Calm L s t) (h : RepG g (⟨o, t⟩ : SWorld T) A) (dbg : Bool) {d : Desc}
    {p : SPart} (hp : PlaceRep g A.stores A.count d p) (lp : A.stores p.store ≠ none) (f : T → T) :
    OkOrS L g o s (MultiArray.forEach dbg f d.extents.length d) (fun A' => A.MapStopped p f A') := by
  have key := map_s hc h hp lp f (positions p.extents) (fun k hk => mem_positions_shape hk)
  rw [positions_eq, ← hp.extents, ← addrs_eq_map d hp.shaped] at key
  rw [forEach_eq dbg f d hp.shaped]
  unfold SState.MapStopped
  rw [positions_eq, ← hp.extents]
  exact key

theorem fill_s {L : List Nat} {o : Nat → Option CVar} {s t : St T} {A : SState T} (hc : Calm L s t) (h : RepG g (⟨o, t⟩ : SWorld T) A) {a : ARef} {hh : SArr}
    (ha : HdrRep g A.stores A.count a hh) {vs : List T} (hvs : A.stores hh.store = some vs) (input : List T) :
    OkOrS L g o s (a.assign input) (fun A' => ∃ k junk, k < input.length ∧ k < hh.extents.prod ∧
      A' = A.setStore hh.store (some (vs.take hh.first ++ input.take k ++ junk :: vs.drop (hh.first + k + 1)))) := by
  have hbd := ha.bound vs hvs
  have hblk := (h.block hvs).2
  simp only at hblk
  have hbase : a.base = ⟨g.blk hh.store, (hh.first : Int)⟩ := ha.data
  have hnum : a.numElems = hh.extents.prod := ha.num
  have hl : ∀ k : Nat, k < a.numElems → ∃ v, t.get? (a.base.add (k : Int)) = some v := by
    intro k hk
    rw [hnum] at hk
    have hlt : hh.first + k < vs.length := by omega
    refine ⟨vs[hh.first + k], ?_⟩
    rw [hbase, show (⟨g.blk hh.store, (hh.first : Int)⟩ : Ptr).add (k : Int) = ⟨g.blk hh.store, ((hh.first + k : Nat) : Int)⟩ by simp [Ptr.add], get?_block hblk]
    simp [hlt]
  rcases assignLoop_x hc a.numElems a.base input hl with ⟨s', e⟩ | ⟨s', t', k, junk, h1, h2, h3, h4, h5⟩
  · exact .inl ⟨s', e⟩
  · rw [hnum] at h1
    rw [hnum, hbase] at h4
    obtain ⟨t1, e1, e2, e3, e4, e5⟩ := assignLoop_block hh.extents.prod (input.take k ++ [junk]) hh.first hblk h.mem.sched hbd
    rw [h4] at e1; cases e1
    have hlen : (input.take k ++ [junk]).length = k + 1 := by simp; omega
    rw [List.take_of_length_le (l := input.take k ++ [junk]) (i := hh.extents.prod) (by omega), hlen] at e2
    have hlist : vs.take hh.first ++ (input.take k ++ [junk]) ++ vs.drop (hh.first + (k + 1)) = vs.take hh.first ++ input.take k ++ junk :: vs.drop (hh.first + k + 1) := by
      simp [Nat.add_assoc]
    rw [hlist] at e2
    refine .inr ⟨s', t', _, h3, ⟨k, junk, h2, h1, rfl⟩, h5, h.sameShape (sameShape_setStore A hvs ?_) (h.mem.update ha.lt e2 e3 e4 e5)⟩
    have : (input.take k).length = k := by simp; omega
    simp [this]; omega

end MultiArray
