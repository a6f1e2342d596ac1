import Verif.Props.Views
import Verif.Props.Gens
import Verif.Props.Compare
import Verif.Props.Resize
import Verif.Props.Handles
import Verif.Props.Const
import Verif.Lemmas.Keeps

/- Exact versions of the properties that are false of the code in full generality (C18, C42, C45, C50, C58, C59): necessary and
sufficient conditions for the claim, so that the gap left by the `_partial` theorems is closed from both sides. -/
set_option autoImplicit false

namespace MultiArray.Props
open MultiArray MultiArray.Spec

/-! ### C18 -/

private theorem inBox_zero_mem {bs : List Int} {es : List Nat} {idx : List Int} (h : InBox bs es idx) : 0 ∉ es := by
  induction es generalizing bs idx with
  | nil => simp
  | cons e es ih =>
    match bs, idx, h with
    | b :: bs, i :: is, ⟨h1, h2, h3⟩ =>
      rw [List.mem_cons, not_or]
      exact ⟨by omega, ih h3⟩

private theorem inBox_zeros (es : List Nat) (h : 0 ∉ es) : InBox (List.replicate es.length 0) es (List.replicate es.length 0) := by
  induction es with
  | nil => exact trivial
  | cons e es ih =>
    rw [List.mem_cons, not_or] at h
    rw [List.length_cons, List.replicate_succ]
    exact ⟨le_refl _, by omega, ih h.2⟩

private theorem noOverrun_of_selected (rs : List IndexRange) (bs : List Int) (es : List Nat) (m : Nat)
    (h : InBox bs es (selected rs bs (List.replicate m 0))) : NoOverrun bs es rs := by
  induction rs generalizing bs es m with
  | nil => cases bs <;> cases es <;> exact trivial
  | cons r rs ih =>
    match bs, es with
    | [], _ => exact trivial
    | _ :: _, [] => exact trivial
    | b :: bs, e :: es =>
      unfold selected at h
      split at h
      · exact ⟨fun _ => by have := h.2.1; omega, ih bs es m h.2.2⟩
      · cases m with
        | zero => exact absurd h id
        | succ m =>
          rw [List.replicate_succ] at h
          obtain ⟨_, h2, h3⟩ := h
          exact ⟨fun _ => by omega, ih bs es m h3⟩

/-- **C18, exactly.** Among the views the library lets a program create (no assertion fails), the ones whose every element is an in-range element of
the viewed array, subarray or view are precisely: those where no range starts one past the end while moving backwards, and the empty ones. -/
theorem C18_exact {n : Nat} {root : ARef} (hr : Reachable n root) {d : Desc} (h : Handle root d) {g : IndexGen} (hb : Built g)
    (hlen : g.ranges.length = d.extents.length) {v : View} (hv : generateArrayView true g d = .ok v) :
    (∀ idx, InBox v.bases v.extents idx →
        ∃ i p, InBox d.bases d.extents i ∧ i = selected g.ranges d.bases idx ∧
          v.paren true idx = .ok p ∧ accessElement true i d = .ok p) ↔
      NoOverrun d.bases d.extents g.ranges ∨ 0 ∈ v.extents := by
  have hw := handle_wellShaped hr h
  obtain ⟨hleg, hnum, hve⟩ := genView_ok hw hlen hv
  have hvb : v.bases = List.replicate v.extents.length 0 := by subst hve; simp [theView, View.mkView]
  constructor
  · intro hall
    by_cases h0 : 0 ∈ v.extents
    · exact .inr h0
    · left
      obtain ⟨i, p, h1, h2, _⟩ := hall (List.replicate v.extents.length 0) (by rw [hvb]; simpa using inBox_zeros _ h0)
      rw [h2] at h1
      exact noOverrun_of_selected _ _ _ _ h1
  · rintro (hno | h0) idx hin
    · obtain ⟨p, h1, h2⟩ := C16_view_elements hr h (staysInside_of_noOverrun hw hno hb hlen hv) hb hlen hv .refl true idx hin
      have hz : List.zipWith (fun x1 x2 => x1 - x2) idx v.bases = idx := by
        rw [hvb]; exact relPos_zero _ _ hin.length.1
      rw [hz] at h2
      refine ⟨_, p, ?_, rfl, h1, h2⟩
      by_cases hz : g.ranges.length = 0
      · have he : d.extents = [] := List.eq_nil_of_length_eq_zero (by omega)
        have hb : d.bases = [] := List.eq_nil_of_length_eq_zero (by rw [hw.2, he]; rfl)
        have hg : g.ranges = [] := List.eq_nil_of_length_eq_zero hz
        rw [he, hb, hg]
        simp [selected, InBox]
      · apply selected_inBox _ _ _ _ hleg hno (hb.degenerate hz hnum)
        rw [hvb] at hin
        have hextlen : v.extents.length = numRanged g.ranges := by
          rw [hve, theView_extents, List.length_map, selExtents_length _ _ _ hleg.length.1 hleg.length.2]
        rw [hextlen, hve, theView_extents] at hin
        exact hin
    · exact absurd h0 (inBox_zero_mem hin)

/-- Both sides of `C18_exact` occur: an accepted reversed range that starts one past the end and is not empty ... -/
example : ∃ v, generateArrayView true ⟨1, 1, [IndexRange.mk3 4 (-1) (-1)]⟩ ⟨⟨7, 0⟩, [4], [1], [0]⟩ = .ok v ∧
    ¬ NoOverrun [0] [4] [IndexRange.mk3 4 (-1) (-1)] ∧ v.extents = [5] := ⟨_, rfl, by decide, by decide⟩
/-- ... (even on an empty array: a view with one element) ... -/
example : ∃ v, generateArrayView true ⟨1, 1, [IndexRange.mk3 0 (-1) (-1)]⟩ ⟨⟨7, 0⟩, [0], [1], [0]⟩ = .ok v ∧
    ¬ NoOverrun [0] [0] [IndexRange.mk3 0 (-1) (-1)] ∧ v.extents = [1] := ⟨_, rfl, by decide, by decide⟩
/-- ... and one that is empty, because of another dimension. -/
example : ∃ v, generateArrayView true ⟨2, 2, [IndexRange.mk3 4 (-1) (-1), IndexRange.mk3 1 1]⟩ ⟨⟨7, 0⟩, [4, 3], [3, 1], [0, 0]⟩ = .ok v ∧
    ¬ NoOverrun [0, 0] [4, 3] [IndexRange.mk3 4 (-1) (-1), IndexRange.mk3 1 1] ∧ v.extents = [5, 0] := ⟨_, rfl, by decide, by decide⟩

/-! ### C45 -/

private theorem size_aux (D t : Int) (ht : 0 < t) (hD : -(2 ^ 64) < D ∧ D < 2 ^ 64) (c : Nat)
    (hc : ∀ k : Nat, k < c ↔ (k : Int) * t < D) :
    (0 < c → (toSizeT (Int.tdiv D t) = c ↔ t ∣ D)) ∧ (c = 0 → (toSizeT (Int.tdiv D t) = 0 ↔ -t < D ∧ D < t)) := by
  have h0 := hc 0
  simp only [Nat.cast_zero, Int.zero_mul] at h0
  rcases Int.lt_or_le 0 D with hp | hp
  · refine ⟨fun _ => ?_, fun h => absurd (h0.mpr hp) (by omega)⟩
    rw [Int.tdiv_eq_ediv_of_nonneg (by omega)]
    have e1 := Int.emod_add_mul_ediv D t
    have e2 := Int.emod_nonneg D (show t ≠ 0 by omega)
    have e3 := Int.emod_lt_of_pos D ht
    have e4 : 0 ≤ D / t := Int.ediv_nonneg (by omega) (by omega)
    have e5 : D / t ≤ D := Int.ediv_le_self _ (by omega)
    rw [Int.dvd_iff_emod_eq_zero]
    obtain ⟨q, hq⟩ := Int.eq_ofNat_of_zero_le e4
    rw [hq] at e1 e5 ⊢
    have hs : toSizeT (q : Int) = q := by unfold toSizeT; omega
    rw [hs]
    have c1 := hc q
    have c2 := hc (q + 1)
    rw [Int.mul_comm] at c1 c2
    rw [Nat.cast_add, Int.mul_add] at c2
    simp only [Nat.cast_one, Int.mul_one] at c2
    have c3 : q ≠ 0 → q - 1 < c := by
      intro hq0
      rw [hc (q - 1), show ((q - 1 : Nat) : Int) = (q : Int) - 1 by omega, Int.sub_mul, Int.mul_comm]
      omega
    omega
  · refine ⟨fun h => absurd (h0.mp h) (by omega), fun _ => ?_⟩
    have e : Int.tdiv D t = -((-D) / t) := by
      rw [← Int.tdiv_eq_ediv_of_nonneg (by omega), Int.neg_tdiv, Int.neg_neg]
    rw [e]
    have e1 := Int.emod_add_mul_ediv (-D) t
    have e2 := Int.emod_nonneg (-D) (show t ≠ 0 by omega)
    have e3 := Int.emod_lt_of_pos (-D) ht
    have e4 : 0 ≤ -D / t := Int.ediv_nonneg (by omega) (by omega)
    have e5 : -D / t ≤ -D := Int.ediv_le_self _ (by omega)
    obtain ⟨q, hq⟩ := Int.eq_ofNat_of_zero_le e4
    rw [hq] at e1 e5 ⊢
    have : toSizeT (-(q : Int)) = 0 ↔ q = 0 := by unfold toSizeT; omega
    rw [this]
    constructor
    · intro h; subst h; simp only [Nat.cast_zero, Int.mul_zero] at e1; omega
    · intro h
      by_contra hq0
      have : t * 1 ≤ t * (q : Int) := Int.mul_le_mul_of_nonneg_left (by omega) (by omega)
      omega

/-- **C45, exactly.** Let `c` be the number of indices a range with explicit, representable ends denotes.  If it denotes any, `size()` returns `c` precisely
when the stride divides `finish - start`; if it denotes none, precisely when the distance between the ends is smaller than the stride. -/
theorem C45_size_exact (r : IndexRange) (idx : Int) (c : Nat) (ht : r.stride_ ≠ 0)
    (hs : -(2 ^ 63) < r.start_ ∧ r.start_ < 2 ^ 63) (hf : -(2 ^ 63) ≤ r.finish_ ∧ r.finish_ < 2 ^ 63 - 1)
    (hc : ∀ k : Nat, k < c ↔ Before r.stride_ (r.start_ + (k : Int) * r.stride_) r.finish_) :
    (0 < c → (r.size idx = .ok c ↔ r.stride_ ∣ r.finish_ - r.start_)) ∧
    (c = 0 → (r.size idx = .ok 0 ↔ |r.finish_ - r.start_| < |r.stride_|)) := by
  have hsz : r.size idx = .ok (toSizeT (Int.tdiv (r.finish_ - r.start_) r.stride_)) := by
    unfold IndexRange.size
    rw [if_neg (by intro h; rcases h with h | h
                   · rw [h] at hs; exact absurd hs.1 (by decide)
                   · rw [h] at hf; exact absurd hf.2 (by decide)), if_neg ht]
  rw [hsz]
  simp only [Res.ok.injEq]
  rcases Int.lt_or_gt_of_ne ht with hn | hp
  · have := size_aux (-(r.finish_ - r.start_)) (-r.stride_) (by omega) (by omega) c (by
      intro k
      rw [hc k, Before, if_neg (by omega), Int.mul_neg]
      omega)
    rw [Int.neg_tdiv, Int.tdiv_neg, Int.neg_neg, Int.neg_dvd, Int.dvd_neg] at this
    rw [abs_lt, abs_of_neg hn]
    refine ⟨this.1, fun h => ?_⟩
    rw [this.2 h]
    omega
  · have := size_aux (r.finish_ - r.start_) r.stride_ hp (by omega) c (by
      intro k
      rw [hc k, Before, if_pos hp]
      omega)
    rw [abs_lt, abs_of_pos hp]
    exact this

/-- Each case of `C45_size_exact` occurs: right, one too small, and an empty range reported as huge. -/
example : (IndexRange.mk3 8 2 (-2)).size 0 = .ok 3 ∧ (IndexRange.mk3 0 5 2).size 0 = .ok 2 ∧
    (IndexRange.mk3 5 4 2).size 0 = .ok 0 ∧ (IndexRange.mk3 5 1 2).size 0 = .ok (2 ^ 64 - 2) := by decide

/-! ### C42 -/

/-- Two shapes agree up to and including the first zero extent. -/
def _root_.MultiArray.Spec.AgreeToZero : (es es' : List Nat) → Prop
  | [], [] => True
  | e :: es, e' :: es' => e = e' ∧ (e = 0 ∨ AgreeToZero es es')
  | _, _ => False

private theorem nested_eq_iff {T : Type} (n : Nat) (es es' : List Nat) (f g : List Nat → T) (h1 : es.length = n) (h2 : es'.length = n) :
    nested n es f = nested n es' g ↔ AgreeToZero es es' ∧ ∀ k, InShape es k → f k = g k := by
  induction n generalizing es es' f g with
  | zero =>
    simp only [List.length_eq_zero_iff] at h1 h2
    subst h1; subst h2
    constructor
    · intro h
      refine ⟨trivial, fun k hk => ?_⟩
      cases k with
      | nil => exact h
      | cons => exact absurd hk id
    · rintro ⟨_, h⟩; exact h [] trivial
  | succ n ih =>
    match es, es', h1, h2 with
    | e :: es, e' :: es', h1, h2 =>
      have l1 : es.length = n := by simpa using h1
      have l2 : es'.length = n := by simpa using h2
      simp only [nested, AgreeToZero]
      constructor
      · intro h
        have hlen : e = e' := by
          have := congrArg List.length h
          simpa using this
        subst hlen
        have hk : ∀ x, x < e → nested n es (fun k => f (x :: k)) = nested n es' (fun k => g (x :: k)) := by
          intro x hx
          exact List.map_inj_left.mp (show (List.range e).map (fun x => nested n es (fun k => f (x :: k))) =
            (List.range e).map (fun x => nested n es' (fun k => g (x :: k))) from h) x (by simpa using hx)
        refine ⟨⟨rfl, ?_⟩, ?_⟩
        · rcases Nat.eq_zero_or_pos e with h0 | h0
          · exact .inl h0
          · exact .inr ((ih es es' _ _ l1 l2).mp (hk 0 h0)).1
        · intro k hin
          match k, hin with
          | x :: k, hin => exact ((ih es es' _ _ l1 l2).mp (hk x hin.1)).2 k hin.2
      · rintro ⟨⟨rfl, h⟩, hall⟩
        apply List.map_congr_left
        intro x hx
        have hx' : x < e := by simpa using hx
        rw [ih es es' _ _ l1 l2]
        exact ⟨by rcases h with h | h; · omega
                  · exact h, fun k hk => hall (x :: k) ⟨hx', hk⟩⟩

/-- **C42, exactly.** For a strict total element order: `a <= b` and `b <= a` both hold precisely when the shapes agree up to and including the first zero
extent and all elements are equal; and in that case `a == b` holds precisely when the shapes are equal.  So antisymmetry fails exactly for empty arrays
whose shapes differ only after a zero extent. -/
theorem C42_antisymmetry_exact {T : Type} [Nonempty T] (s : St T) (n : Nat) (a b : Desc) (ha : Readable s n a) (hb : Readable s n b)
    (dbg : Bool) (lt eq : T → T → Bool) (hlt : StrictWeak lt) (htot : ∀ x y, lt x y = false → lt y x = false → x = y)
    (heq : ∀ x y, eq x y = true ↔ x = y) :
    (lessEqRef dbg lt s n a b = .ok true ∧ lessEqRef dbg lt s n b a = .ok true ↔
      AgreeToZero a.extents b.extents ∧ ∀ k, InShape a.extents k → elemAt s a k = elemAt s b k) ∧
    (lessEqRef dbg lt s n a b = .ok true → lessEqRef dbg lt s n b a = .ok true →
      equalRef dbg eq s n a b = .ok (decide (a.extents = b.extents))) := by
  obtain ⟨f, hf⟩ := ha.contents
  obtain ⟨g, hg⟩ := hb.contents
  have hiff : lessEqRef dbg lt s n a b = .ok true ∧ lessEqRef dbg lt s n b a = .ok true ↔
      nested n a.extents f = nested n b.extents g := by
    rw [lessEqRef, greaterRef, lessRef_spec dbg lt s n b a hb.ws ha.ws hb.len ha.len g f hg hf, Res.bind_ok, Res.ok.injEq,
      Bool.not_eq_true', lessEqRef, greaterRef, lessRef_spec dbg lt s n a b ha.ws hb.ws ha.len hb.len f g hf hg, Res.bind_ok, Res.ok.injEq,
      Bool.not_eq_true']
    constructor
    · rintro ⟨h1, h2⟩; exact lexVal_total htot n _ _ h2 h1
    · intro h
      have : lexVal lt n (nested n b.extents g) (nested n b.extents g) = false := by
        cases hx : lexVal lt n (nested n b.extents g) (nested n b.extents g) with
        | false => rfl
        | true => have := ((SWO.ofStrictWeak hlt).lexVal n).asymm _ _ hx; rw [hx] at this; cases this
      rw [h]; exact ⟨this, this⟩
  have hagree : ∀ (es es' : List Nat) (k : List Nat), AgreeToZero es es' → InShape es k → InShape es' k := by
    intro es
    induction es with
    | nil => intro es' k h hk; cases es' with
      | nil => exact hk
      | cons => exact absurd h id
    | cons e es ih =>
      intro es' k h hk
      match es', k, h, hk with
      | e' :: es', x :: k, ⟨h1, h2⟩, ⟨k1, k2⟩ =>
        refine ⟨by omega, ?_⟩
        rcases h2 with h2 | h2
        · omega
        · exact ih es' k h2 k2
  constructor
  · rw [hiff, nested_eq_iff n _ _ f g ha.len hb.len]
    constructor
    · rintro ⟨h1, h2⟩
      exact ⟨h1, fun k hk => by rw [hf k hk, hg k (hagree _ _ k h1 hk), h2 k hk]⟩
    · rintro ⟨h1, h2⟩
      refine ⟨h1, fun k hk => ?_⟩
      have := h2 k hk
      rw [hf k hk, hg k (hagree _ _ k h1 hk)] at this
      exact Option.some.inj this
  · intro h1 h2
    have hn := (nested_eq_iff n _ _ f g ha.len hb.len).mp (hiff.mp ⟨h1, h2⟩)
    rw [equalRef_spec dbg eq s n a b ha.ws hb.ws ha.len hb.len f g hf hg, Res.ok.injEq]
    by_cases hs : a.extents = b.extents
    · rw [decide_eq_true hs, Bool.true_and, List.all_eq_true]
      intro k hk
      rw [mem_allPos] at hk
      exact (heq _ _).mpr (hn.2 k hk)
    · rw [decide_eq_false hs, Bool.false_and]

/-- The two sides of the characterisation are not trivial: `[0,3]` and `[0,5]` agree up to the first zero, `[2,0]` and `[3,0]` do not. -/
example : AgreeToZero [0, 3] [0, 5] ∧ ¬ AgreeToZero [2, 0] [3, 0] ∧ StrictWeak (fun x y : Nat => decide (x < y)) := by
  refine ⟨⟨rfl, .inl rfl⟩, fun h => absurd h.1 (by decide), ?_, ?_, ?_⟩
  · simp
  · intro x y z; simp; omega
  · intro x y z; simp; omega

/-! ### C50 -/

/-- **C50, exactly.** When a constructor throws, it has released everything it acquired precisely if the exception came from the allocation; an exception
from constructing or copying an element always leaves the block allocated (the counterexamples of `Props/Resize.lean`, for every constructor and every throw point). -/
theorem C50_leak_exact {T : Type} (dbg : Bool) (dflt : T) {s s' : St T} (hs : SaneHeap s) (c : Ctor) (hc : c.Legal s)
    (h : c.run dbg dflt s = .throw s') : s'.heap = s.heap ↔ ∃ junk fs, s.sched = some junk :: fs := by
  constructor
  · intro heap
    by_contra hcon
    have hno : ∀ junk fs, s.sched ≠ some junk :: fs := fun junk fs hh => hcon ⟨junk, fs, hh⟩
    have key : (c.run dbg dflt s).has s.next := by
      have hfail : ∀ {α : Type} {r : Res ARef} {f : ARef → Exec T α}, (∀ ref, (f ref s).has s.next) → c.run dbg dflt s = .throw s' →
          (Exec.lift r >>= f) s = .throw s' → ((Exec.lift r >>= f) s).has s.next := by
        intro α r f hf _ h
        cases r with
        | ok a => exact hf a
        | assertFail => cases h
        | ub => trivial
      cases c with
      | default n al => exact hfail (fun ref => allocateSpace_has dflt ref al s hno) h h
      | extents n es so al => exact hfail (fun ref => allocateSpace_has dflt ref al s hno) h h
      | gen n rs so al => exact hfail (fun ref => allocateSpace_has dflt ref al s hno) h h
      | copy n a =>
        exact has_bind (allocateSpace_has dflt _ _ s hno) (fun _ => Keeps.bind (Keeps.copyNElems _ _ _) (fun _ => Keeps.pure _))
      | convert n src so al =>
        refine hfail (fun ref => has_bind (allocateSpace_has dflt ref al s hno) (fun m => ?_)) h h
        refine Keeps.bind (Keeps.lift _) fun _ => Keeps.bind (Keeps.lift _) fun _ => Keeps.bind (Keeps.lift _) fun _ =>
          Keeps.bind (Keeps.stdCopy (fun i o => ?_) _ _ _) (fun _ => Keeps.pure _)
        exact Keeps.bind (Keeps.lift _) fun _ => Keeps.bind (Keeps.lift _) fun _ => Keeps.assignRef _ _ _ _
    rw [h] at key
    apply key
    show s'.heap s.next = none
    rw [heap]
    exact hs.2 _ (Nat.le_refl _)
  · rintro ⟨junk, fs, hsch⟩
    obtain ⟨s'', h1, h2, _⟩ := (C50_failed_construction_partial dbg dflt hs c hc).2 junk fs hsch
    rw [h1] at h
    cases h
    exact h2

/-- Both sides occur: constructing a 2x2 array when the allocation throws, and when the third element throws. -/
example : (∃ s', (Ctor.gen 2 [⟨0, 2⟩, ⟨0, 2⟩] (StorageOrder.cOrder 2) 0).run true (0 : Nat) ⟨fun _ => none, 1, [some 7]⟩ = .throw s' ∧ s'.heap 1 = none) ∧
    (∃ s', (Ctor.gen 2 [⟨0, 2⟩, ⟨0, 2⟩] (StorageOrder.cOrder 2) 0).run true (0 : Nat) ⟨fun _ => none, 1, [none, none, none, some 7]⟩ = .throw s' ∧
      s'.heap 1 = some ⟨0, [.raw, .raw, .raw, .raw]⟩) := ⟨⟨_, rfl, rfl⟩, ⟨_, rfl, rfl⟩⟩

/-! ### C58 -/

/-- **C58, exactly.** A subarray can be used precisely while the object it was taken from exists - the existence of the array that owns the elements does not
matter. -/
theorem C58_exact (sc : Scope) (x : SubObj) : x.desc sc = .ub ↔ sc x.owner = none := by
  unfold SubObj.desc
  cases h : sc x.owner <;> simp

/-! ### C59 -/
open CxxConst

/-- **C59, exactly.** With copying and converting of handle objects allowed, the expressions from which elements can *not* be written are precisely: the
read-only handles that store a `const T*`, const iterators, pointers and references to const, and the base-class part of a view (whose `origin()` was declared
to return `const T*`).  All others - in particular every const object of a mutable class - give mutable access. -/
theorem C59_exact (t : Ty) :
    MutablyReaches (fun _ => True) t ↔ ¬ (DeepReadOnly t ∨ ∃ n k, t = .handle (.constView true) n k) := by
  constructor
  · rintro h (h' | ⟨n, k, rfl⟩)
    · exact C59_copying_keeps_const_partial h' h
    · obtain ⟨ops, t', -, hc, hw⟩ := h
      have hcr : ∀ n, DeepReadOnly (constReference n) := by
        intro n; unfold constReference; split
        · exact .elem
        · exact .csub _ _
      have key : ∀ (ops : List Op) (n : Nat) (k : Bool) (t' : Ty), chain ops (.handle (.constView true) n k) = some t' → writable t' = true → False := by
        intro ops
        induction ops with
        | nil => intro n k t' hc hw; cases hc; cases hw
        | cons op ops ih =>
          intro n k t' hc hw
          simp only [chain, Option.bind_eq_some_iff] at hc
          obtain ⟨u, hu, hc⟩ := hc
          have hor : DeepReadOnly u ∨ ∃ n k, u = .handle (.constView true) n k := by
            cases op <;> simp [step, baseOf] at hu
            case call m =>
              left
              cases k <;> cases m <;> simp [overloads, resolve] at hu <;> subst hu <;> first | constructor | exact hcr n
            all_goals (subst hu; first | exact .inr ⟨_, _, rfl⟩ | exact .inl (.cview _ _))
          rcases hor with hd | ⟨n', k', rfl⟩
          · exact C59_copying_keeps_const_partial hd ⟨ops, t', trivial, hc, hw⟩
          · exact ih n' k' t' hc hw
      exact key ops n k t' hc hw
  · intro h
    rw [not_or] at h
    obtain ⟨h1, h2⟩ := h
    have href : ∀ n, writable (reference n) = true := by
      intro n; unfold reference; split <;> rfl
    cases t with
    | handle c n k =>
      cases c with
      | multiArray => exact ⟨[.refCopy], _, trivial, rfl, rfl⟩
      | multiArrayRef => exact ⟨[.copy], _, trivial, rfl, rfl⟩
      | constMultiArrayRef mp =>
        cases mp with
        | false => exact absurd (.cref n k) h1
        | true => exact ⟨[.copy], _, trivial, rfl, rfl⟩
      | subArray => exact ⟨[.copy], _, trivial, rfl, rfl⟩
      | constSubArray mp =>
        cases mp with
        | false => exact absurd (.csub n k) h1
        | true => cases k <;> exact ⟨[.call .origin, .deref], .elem false, trivial, rfl, rfl⟩
      | view => exact ⟨[.copy], _, trivial, rfl, rfl⟩
      | constView mp =>
        cases mp with
        | false => exact absurd (.cview n k) h1
        | true => exact absurd ⟨n, k, rfl⟩ h2
    | iter m n =>
      cases m with
      | false => exact absurd (.iter n) h1
      | true => exact ⟨[.deref], reference n, trivial, rfl, href n⟩
    | riter m n =>
      cases m with
      | false => exact absurd (.riter n) h1
      | true => exact ⟨[.deref], reference n, trivial, rfl, href n⟩
    | elem k =>
      cases k with
      | true => exact absurd .elem h1
      | false => exact ⟨[], _, trivial, rfl, rfl⟩
    | ptr k =>
      cases k with
      | true => exact absurd .ptr h1
      | false => exact ⟨[.deref], _, trivial, rfl, rfl⟩

end MultiArray.Props
