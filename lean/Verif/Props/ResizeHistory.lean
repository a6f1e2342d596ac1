import Verif.Props.Resize

/-
Property theorems C38 and C39: any number of resizes in a row.
-/
set_option autoImplicit false

namespace MultiArray.Props
open MultiArray MultiArray.Spec
variable {T : Type}

/-- The client loop `for (r : requests) a.resize(r);`, stopped by the first call that does not return.  (Client code: it models nothing in the library but its calls of
multi_array.hpp:453-516.) -/
def resizeAll (dbg : Bool) (dflt : T) (n : Nat) : List (List ExtentRange) → MArr → St T → Out T Unit × MArr
  | [], a, s => (.ok () s, a)
  | rs :: rest, a, s =>
    match MArr.resize dbg dflt ⟨n, rs⟩ a s with
    | (.ok () s', a') => resizeAll dbg dflt n rest a' s'
    | r => r

theorem resizeAll_ok (dbg : Bool) (dflt : T) {n : Nat} (reqs : List (List ExtentRange)) {s : St T} {a : MArr} {vs : List T} (ha : OwnsVals s n a vs)
    (hs : SaneHeap s) (hsched : s.sched = []) (hra : Representable a.ref.bases a.ref.extents)
    (hreq : ∀ rs ∈ reqs, rs.length = n ∧ LegalExtents rs) :
    ∃ a' s', resizeAll dbg dflt n reqs a s = (.ok () s', a') ∧
      a'.ref.extents = ((reqs.getLast?).map reqExtents).getD a.ref.extents ∧ a'.ref.bases = ((reqs.getLast?).map reqBases).getD a.ref.bases ∧
      a'.ref.storage = a.ref.storage ∧ a'.alloc = a.alloc ∧
      (∀ k, InShape a'.ref.extents k → (InShape a.ref.extents k ∧ ∀ rs ∈ reqs, InShape (reqExtents rs) k) →
        elemAt s' a'.ref.desc k = elemAt s a.ref.desc k) ∧
      (∀ k, InShape a'.ref.extents k → ¬ (InShape a.ref.extents k ∧ ∀ rs ∈ reqs, InShape (reqExtents rs) k) →
        elemAt s' a'.ref.desc k = some dflt) ∧
      (∃ ws, OwnsVals s' n a' ws) ∧ (reqs ≠ [] → s.next ≤ a'.ref.data.blk ∧ s'.heap a.ref.data.blk = none) ∧
      (∀ c, c ≠ a.ref.data.blk → c ≠ a'.ref.data.blk → s'.heap c = s.heap c) ∧ (reqs = [] → a' = a ∧ s' = s) ∧ s'.sched = [] ∧ SaneHeap s' := by
  induction reqs generalizing s a vs with
  | nil =>
    exact ⟨a, s, rfl, rfl, rfl, rfl, rfl, fun _ _ _ => rfl, fun k hk h => absurd ⟨hk, by simp⟩ h, ⟨vs, ha⟩, by simp, fun _ _ _ => rfl, fun _ => ⟨rfl, rfl⟩, hsched, hs⟩
  | cons rs rest ih =>
    obtain ⟨hl, hleg⟩ := hreq rs (by simp)
    obtain ⟨a1, s1, h1, h2, h3, h4, h5, h6, h7, h8, h9, ⟨ws, h10⟩, h11, h12, h13, h14⟩ := resize_ok dbg dflt ha hs hsched hra hl hleg
    obtain ⟨a2, s2, e1, e2, e3, e4, e5, e6, e7, e8, e9, e10, e11, e12, e13⟩ := ih h10 h14 h13
      (by rw [h2, h3]; exact legalExtents_rep hleg) (fun r hr => hreq r (by simp [hr]))
    have hb1 : a1.ref.data.blk = s.next := by rw [h8]
    have hnext : s.next < s1.next := by rw [← hb1]; exact h10.blk_lt h14
    have hlt := ha.blk_lt hs
    refine ⟨a2, s2, by simp only [resizeAll, h1]; exact e1, ?_, ?_, e4.trans h4, e5.trans h5, ?_, ?_, e8, ?_, ?_, by simp, e12, e13⟩
    · rw [e2]
      cases rest with
      | nil => simpa using h3
      | cons r rest => simp [List.getLast?_cons]
    · rw [e3]
      cases rest with
      | nil => simpa using h2
      | cons r rest => simp [List.getLast?_cons]
    · rintro k hk ⟨k1, k2⟩
      have k3 : InShape a1.ref.extents k := by rw [h3]; exact k2 rs (by simp)
      rw [e6 k hk ⟨k3, fun r hr => k2 r (by simp [hr])⟩, h6 k k3 k1]
    · intro k hk hno
      by_cases hc : InShape a1.ref.extents k ∧ ∀ r ∈ rest, InShape (reqExtents r) k
      · rw [e6 k hk hc, h7 k hc.1]
        intro hk0
        refine hno ⟨hk0, fun r hr => ?_⟩
        rcases List.mem_cons.mp hr with rfl | hr
        · rw [← h3]; exact hc.1
        · exact hc.2 r hr
      · exact e7 k hk hc
    · intro _
      cases rest with
      | nil =>
        obtain ⟨r1, r2⟩ := e11 rfl
        subst r1 r2
        exact ⟨by omega, h11⟩
      | cons r rest =>
        obtain ⟨r1, _⟩ := e9 (by simp)
        refine ⟨by omega, ?_⟩
        rw [e10 _ (by omega) (by omega)]
        exact h11
    · intro c c1 c2
      by_cases hc : c = a1.ref.data.blk
      · cases rest with
        | nil =>
          obtain ⟨r1, _⟩ := e11 rfl
          rw [r1] at c2
          exact absurd hc c2
        | cons r rest =>
          rw [hc, (e9 (by simp)).2, hb1]
          exact h9.symm
      · rw [e10 c hc c2]
        exact h12 c c1 (by omega)

/-- **C38.** After any sequence of resizes the shape and the bases are those of the last one; an element whose zero-based position existed in the original shape and in *every* shape in
between has its original value, and every other element is value-initialised (also one whose position existed at first and again at the end, but not all the time). -/
theorem C38_any_resizes (dbg : Bool) (dflt : T) {n : Nat} (reqs : List (List ExtentRange)) {s : St T} {a : MArr} {vs : List T} (ha : OwnsVals s n a vs)
    (hs : SaneHeap s) (hsched : s.sched = []) (hra : Representable a.ref.bases a.ref.extents)
    (hreq : ∀ rs ∈ reqs, rs.length = n ∧ LegalExtents rs) :
    ∃ a' s', resizeAll dbg dflt n reqs a s = (.ok () s', a') ∧
      a'.ref.extents = ((reqs.getLast?).map reqExtents).getD a.ref.extents ∧ a'.ref.bases = ((reqs.getLast?).map reqBases).getD a.ref.bases ∧
      a'.ref.storage = a.ref.storage ∧ a'.alloc = a.alloc ∧
      (∀ k, InShape a'.ref.extents k → (InShape a.ref.extents k ∧ ∀ rs ∈ reqs, InShape (reqExtents rs) k) →
        elemAt s' a'.ref.desc k = elemAt s a.ref.desc k) ∧
      (∀ k, InShape a'.ref.extents k → ¬ (InShape a.ref.extents k ∧ ∀ rs ∈ reqs, InShape (reqExtents rs) k) →
        elemAt s' a'.ref.desc k = some dflt) := by
  obtain ⟨a', s', h1, h2, h3, h4, h5, h6, h7, _⟩ := resizeAll_ok dbg dflt reqs ha hs hsched hra hreq
  exact ⟨a', s', h1, h2, h3, h4, h5, h6, h7⟩

/-- **C39.** However many resizes: in the end the array owns one block that did not exist before, the original block is gone, and no other block exists or has changed that did not before
(nothing accumulates). -/
theorem C39_any_resizes (dbg : Bool) (dflt : T) {n : Nat} (reqs : List (List ExtentRange)) (hne : reqs ≠ []) {s : St T} {a : MArr} {vs : List T}
    (ha : OwnsVals s n a vs) (hs : SaneHeap s) (hsched : s.sched = []) (hra : Representable a.ref.bases a.ref.extents)
    (hreq : ∀ rs ∈ reqs, rs.length = n ∧ LegalExtents rs) :
    ∃ a' s', resizeAll dbg dflt n reqs a s = (.ok () s', a') ∧ (∃ ws, OwnsVals s' n a' ws) ∧
      s.heap a'.ref.data.blk = none ∧ s'.heap a.ref.data.blk = none ∧
      (∀ c, c ≠ a.ref.data.blk → c ≠ a'.ref.data.blk → s'.heap c = s.heap c) ∧ SaneHeap s' := by
  obtain ⟨a', s', h1, _, _, _, _, _, _, h2, h3, h4, _, _, h5⟩ := resizeAll_ok dbg dflt reqs ha hs hsched hra hreq
  exact ⟨a', s', h1, h2, hs.2 _ (h3 hne).1, (h3 hne).2, h4, h5⟩

/-! ### Instances -/

/-- 2x3x4 to 1x3x4 to 2x3x4: the second slice has been lost, the first one is as before. -/
example : ∃ a' s', resizeAll true 0 3 [[⟨0, 1⟩, ⟨0, 3⟩, ⟨0, 4⟩], [⟨0, 2⟩, ⟨0, 3⟩, ⟨0, 4⟩]] exM exSt = (.ok () s', a') ∧
    a'.ref.extents = [2, 3, 4] ∧ elemAt s' a'.ref.desc [1, 1, 3] = some 0 ∧
    elemAt s' a'.ref.desc [0, 1, 3] = elemAt exSt exM.ref.desc [0, 1, 3] := by
  obtain ⟨a', s', h1, h2, _, _, _, h3, h4⟩ := C38_any_resizes true 0 [[⟨0, 1⟩, ⟨0, 3⟩, ⟨0, 4⟩], [⟨0, 2⟩, ⟨0, 3⟩, ⟨0, 4⟩]] exM_owns exSt_sane rfl
    (by decide) (by decide)
  have h2 : a'.ref.extents = [2, 3, 4] := h2
  exact ⟨a', s', h1, h2, h4 _ (by rw [h2]; decide) (by decide), h3 _ (by rw [h2]; decide) (by decide)⟩

example := C39_any_resizes true 0 [[⟨0, 1⟩, ⟨0, 3⟩, ⟨0, 4⟩], [⟨0, 2⟩, ⟨0, 3⟩, ⟨0, 4⟩]] (by decide) exM_owns exSt_sane rfl (by decide) (by decide)

end MultiArray.Props
