import Verif.Lemmas.Handle
import Verif.Model.Iterator

/- Iteration over a dimension. -/
set_option autoImplicit false

namespace MultiArray
open Spec

/-- The value at zero-based position `k` of the first dimension: `a[base+k]`. -/
def subAt (p : Ptr) (es : List Nat) (s : Int) (ss : List Int) (b : Int) (bs : List Int) (k : Nat) : Desc :=
  ⟨p.add ((b + (k : Int)) * s), es, ss, bs⟩

theorem It.equal_iff (i j : It) : i.equal j = true ↔ i = j := by
  obtain ⟨x, p, es, ss, bs⟩ := i
  obtain ⟨y, q, es', ss', bs'⟩ := j
  simp [It.equal]
  constructor
  · rintro ⟨⟨⟨⟨a, b⟩, c⟩, d⟩, e⟩; exact ⟨a, b, c, d, e⟩
  · rintro ⟨a, b, c, d, e⟩; exact ⟨⟨⟨⟨a, b⟩, c⟩, d⟩, e⟩

theorem It.deref_in (dbg : Bool) (p : Ptr) (e : Nat) (es : List Nat) (s : Int) (ss : List Int) (b : Int) (bs : List Int)
    (k : Nat) (hk : k < e) :
    (⟨b + (k : Int), ⟨p, e :: es, s :: ss, b :: bs⟩⟩ : It).deref dbg = .ok (subAt p es s ss b bs k) :=
  access_ok dbg (b + (k : Int)) p e es s ss b bs (by omega) (by omega)

theorem iterLoop_spec (dbg : Bool) (p : Ptr) (e : Nat) (es : List Nat) (s : Int) (ss : List Int) (b : Int) (bs : List Int)
    (fuel j : Nat) (hj : j ≤ e) (hf : e - j ≤ fuel) :
    iterLoop dbg fuel ⟨b + (j : Int), ⟨p, e :: es, s :: ss, b :: bs⟩⟩ ⟨b + (e : Int), ⟨p, e :: es, s :: ss, b :: bs⟩⟩ =
      .ok (some ((List.range' j (e - j)).map (subAt p es s ss b bs))) := by
  induction fuel generalizing j with
  | zero =>
    have : j = e := by omega
    subst this
    simp [iterLoop, It.equal_iff]
  | succ fuel ih =>
    by_cases h : j = e
    · subst h; simp [iterLoop, It.equal_iff]
    · unfold iterLoop
      have hne : ¬ ((⟨b + (j : Int), ⟨p, e :: es, s :: ss, b :: bs⟩⟩ : It).equal
          ⟨b + (e : Int), ⟨p, e :: es, s :: ss, b :: bs⟩⟩ = true) := by
        rw [It.equal_iff]; intro h'; injection h' with h1; omega
      rw [if_neg hne, It.deref_in dbg p e es s ss b bs j (by omega), Res.bind_ok]
      have := ih (j + 1) (by omega) (by omega)
      simp only [It.increment]
      rw [show b + (j : Int) + 1 = b + ((j + 1 : Nat) : Int) by push_cast; ring, this, Res.bind_ok,
        show e - j = (e - (j + 1)) + 1 by omega, List.range'_succ]
      simp

theorem riterLoop_spec (dbg : Bool) (p : Ptr) (e : Nat) (es : List Nat) (s : Int) (ss : List Int) (b : Int) (bs : List Int)
    (fuel j : Nat) (hj : j ≤ e) (hf : j ≤ fuel) :
    riterLoop dbg fuel ⟨⟨b + (j : Int), ⟨p, e :: es, s :: ss, b :: bs⟩⟩⟩ ⟨⟨b, ⟨p, e :: es, s :: ss, b :: bs⟩⟩⟩ =
      .ok (some (((List.range j).map (subAt p es s ss b bs)).reverse)) := by
  induction fuel generalizing j with
  | zero =>
    have : j = 0 := by omega
    subst this
    simp [riterLoop, RIt.equal, It.equal_iff]
  | succ fuel ih =>
    cases j with
    | zero => simp [riterLoop, RIt.equal, It.equal_iff]
    | succ j =>
      unfold riterLoop
      have hne : ¬ ((⟨⟨b + ((j + 1 : Nat) : Int), ⟨p, e :: es, s :: ss, b :: bs⟩⟩⟩ : RIt).equal
          ⟨⟨b, ⟨p, e :: es, s :: ss, b :: bs⟩⟩⟩ = true) := by
        rw [RIt.equal, It.equal_iff]; intro h'; injection h' with h1; omega
      rw [if_neg hne]
      simp only [RIt.deref, RIt.increment, It.decrement]
      rw [show b + ((j + 1 : Nat) : Int) - 1 = b + (j : Int) by push_cast; ring,
        It.deref_in dbg p e es s ss b bs j (by omega), Res.bind_ok, ih j (by omega) (by omega), Res.bind_ok,
        List.range_succ]
      simp

theorem begin_cons (p : Ptr) (e : Nat) (es : List Nat) (ss : List Int) (b : Int) (bs : List Int) :
    (⟨p, e :: es, ss, b :: bs⟩ : Desc).begin = .ok ⟨b, ⟨p, e :: es, ss, b :: bs⟩⟩ := rfl

theorem end_cons (p : Ptr) (e : Nat) (es : List Nat) (ss : List Int) (b : Int) (bs : List Int) :
    (⟨p, e :: es, ss, b :: bs⟩ : Desc).end = .ok ⟨b + (e : Int), ⟨p, e :: es, ss, b :: bs⟩⟩ := rfl

theorem visitAll_spec (visit : Desc → Res (Option (List Ptr))) (f : Desc → List Ptr) (vs : List Desc)
    (h : ∀ v ∈ vs, visit v = .ok (some (f v))) : visitAll visit vs = .ok (some (vs.flatMap f)) := by
  induction vs with
  | nil => rfl
  | cons v vs ih =>
    unfold visitAll
    rw [h v (by simp), Res.bind_ok, ih (fun v hv => h v (by simp [hv])), Res.bind_ok]
    simp

theorem nestedLoop_spec (dbg : Bool) (fuel : Nat) (d : Desc) (hw : WellShaped d) (hf : ∀ e ∈ d.extents, e ≤ fuel) :
    nestedLoop dbg fuel d.extents.length d = .ok (some ((allIdx d.bases d.extents).map (address d))) := by
  obtain ⟨p, es, ss, bs⟩ := d
  induction es generalizing p ss bs with
  | nil =>
    obtain ⟨h1, h2⟩ := hw
    match ss, bs, h1, h2 with
    | [], [], _, _ => simp [nestedLoop, allIdx, address, dot]
  | cons e es ih =>
    obtain ⟨h1, h2⟩ := hw
    match ss, bs, h1, h2 with
    | s :: ss, b :: bs, h1, h2 =>
      simp only [List.length_cons, nestedLoop]
      rw [begin_cons, end_cons, Res.bind_ok, Res.bind_ok]
      have := iterLoop_spec dbg p e es s ss b bs fuel 0 (by omega) (by have := hf e (by simp); omega)
      simp only [Nat.cast_zero, add_zero, Nat.sub_zero] at this
      rw [this, Res.bind_ok]
      simp only
      rw [visitAll_spec _ (fun v => (allIdx bs es).map (address v))]
      · simp only [allIdx, List.map_flatMap, List.flatMap_map, List.map_map, ← List.range_eq_range']
        congr 2
        apply List.flatMap_congr
        intro k _
        apply List.map_congr_left
        intro idx _
        simp [address, subAt, dot, Ptr.add_add]
      · intro v hv
        simp only [List.mem_map] at hv
        obtain ⟨k, _, rfl⟩ := hv
        exact ih (p.add ((b + (k : Int)) * s)) ss bs ⟨by simpa using h1, by simpa using h2⟩
          (fun e' he' => hf e' (by simp [he']))

end MultiArray
