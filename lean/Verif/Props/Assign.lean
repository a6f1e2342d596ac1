import Verif.Props.Own
import Verif.Props.Compare
import Verif.Props.Copy

/-
C30, C31, C32 for `multi_array::operator=` itself, and assignment followed by comparison.
-/
set_option autoImplicit false

namespace MultiArray.Props
open MultiArray Spec
variable {T : Type}

theorem live_after {s s' : St T} {r : ARef} (hl : Live s r) (h : ∀ p v, s.get? p = some v → ∃ v', s'.get? p = some v') : Live s' r :=
  fun k hk => by obtain ⟨v, hv⟩ := hl k hk; exact h _ _ hv

theorem assigned_live {s s' : St T} {dst src : Desc} (hc : CopySetup s dst src)
    (e2 : ∀ k, InShape dst.extents k → elemAt s' dst k = elemAt s src k) (e3 : ∀ p, Outside dst p → s'.cell? p = s.cell? p) :
    ∀ p v, s.get? p = some v → ∃ v', s'.get? p = some v' := by
  intro p v hv
  by_cases hp : Outside dst p
  · exact ⟨v, by unfold St.get? at hv ⊢; rw [e3 p hp]; exact hv⟩
  · rw [outside_iff, not_not, mem_addrs] at hp
    obtain ⟨i, hi, rfl⟩ := hp
    obtain ⟨k, hk, rfl⟩ := (inBox_iff_atPos hc.wd.2).mp hi
    have := e2 k hk
    obtain ⟨w, hw⟩ := hc.ls _ (inBox_atPos hc.ws.2 (by rw [hc.ext]; exact hk))
    unfold elemAt at this
    exact ⟨w, by rw [this]; exact hw⟩

/-- **C30**, then **C40**: after `dst = src` between non-overlapping arrays, subarrays or views of equal shape, `dst == src` is true, for every element
type whose `==` is reflexive - whatever the index bases, strides and storage orders of the two are. -/
theorem C30_assigned_compares_equal [Nonempty T] {n1 n2 : Nat} {r1 r2 : ARef} (h1 : Reachable n1 r1) (h2 : Reachable n2 r2)
    {dst src : Desc} (hd : Handle r1 dst) (hs : Handle r2 src) (he : src.extents = dst.extents) (s : St T)
    (l1 : Live s r1) (l2 : Live s r2) (hno : NoOverlap dst src) (hsched : s.sched = []) (dbg : Bool) (eq : T → T → Bool)
    (hrefl : ∀ x, eq x x = true) :
    ∃ s', assignOp dbg false dst src s = .ok () s' ∧ equalRef dbg eq s' dst.extents.length dst src = .ok true ∧
      notEqualRef dbg eq s' dst.extents.length dst src = .ok false := by
  obtain ⟨s', e1, e2, e3, e4⟩ := C30_assignment_deep_copy h1 h2 hd hs he s l1 l2 hno hsched dbg
  have hcopy := copySetup h1 h2 hd hs he l1 l2
  have hkeep := assigned_live hcopy (fun k hk => (e2 k hk).1) e3
  have q1 : Readable s' dst.extents.length dst := ⟨_, _, h1, hd, live_after l1 hkeep, rfl⟩
  have q2 : Readable s' dst.extents.length src := ⟨_, _, h2, hs, live_after l2 hkeep, by rw [he]⟩
  obtain ⟨r, f1, f2, f3⟩ := C40_equality s' _ dst src q1 q2 dbg eq
  have hr : r = true := f3.mpr ⟨he.symm, fun k hk => by
    obtain ⟨w, hw⟩ := hcopy.ls _ (inBox_atPos hcopy.ws.2 (by rw [he]; exact hk))
    exact ⟨w, w, by rw [(e2 k hk).1]; exact hw, by rw [(e2 k hk).2]; exact hw, hrefl w⟩⟩
  subst hr
  exact ⟨s', e1, f1, f2⟩

/-- The concrete assignment at the end of `Props/Copy` meets the hypotheses; run, it gives equal arrays that were unequal before. -/
example : equalRef true (fun (x y : Nat) => decide (x = y)) exSt2 3 exArr2.desc exArr.desc = .ok false ∧
    ∃ s', assignOp true false exArr2.desc exArr.desc exSt2 = .ok () s' ∧
      equalRef true (fun (x y : Nat) => decide (x = y)) s' 3 exArr2.desc exArr.desc = .ok true :=
  ⟨by decide +kernel, _, rfl, by decide +kernel⟩

/-- **C30** for `multi_array::operator=`: assigning another array of the same shape gives the left array the right array's elements, position by position;
the left array keeps its own storage, index bases and storage order, and nothing else changes. -/
theorem C30_multi_array_assignment {n : Nat} {s : St T} {a b : MArr} (ha : Owns s n a) (hb : Owns s n b)
    (hne : a.ref.data.blk ≠ b.ref.data.blk) (he : b.ref.extents = a.ref.extents) (hsched : s.sched = []) (dbg : Bool) :
    ∃ s', a.assignFrom dbg false b s = .ok () s' ∧ Owns s' n a ∧ Owns s' n b ∧ SameExcept a.ref.data.blk s s' ∧
      ∀ k, InShape a.ref.extents k → elemAt s' a.ref.desc k = elemAt s b.ref.desc k ∧ elemAt s' b.ref.desc k = elemAt s b.ref.desc k := by
  obtain ⟨vs, ha⟩ := ha
  obtain ⟨ws, hb⟩ := hb
  have hno : NoOverlap a.ref.desc b.ref.desc := by
    intro i j hi hj heq
    obtain ⟨k, _, e1⟩ := Handle.array.address_in_block ha.reach.wf hi
    obtain ⟨k', _, e2⟩ := Handle.array.address_in_block hb.reach.wf hj
    rw [e1, e2] at heq
    have := congrArg Ptr.blk heq
    exact hne this
  obtain ⟨s', e1, e2, e3, e4⟩ := C30_assignment_deep_copy ha.reach hb.reach .array .array he s ha.live hb.live hno hsched dbg
  have hcopy := copySetup ha.reach hb.reach .array .array he ha.live hb.live
  have hkeep := assigned_live hcopy (fun k hk => (e2 k hk).1) e3
  have hsame : SameExcept a.ref.data.blk s s' := by
    intro c hc
    refine heap_ext (fun off => e3 _ ?_) (e4.1 c)
    intro i hi heq
    obtain ⟨k, _, e⟩ := Handle.array.address_in_block ha.reach.wf hi
    rw [e] at heq
    exact hc (congrArg Ptr.blk heq)
  obtain ⟨vs', f1, f2⟩ := block_live ha.block (e4.1 _) (fun q ⟨v, hv⟩ => hkeep q v hv)
  exact ⟨s', e1, ⟨vs', ha.reach, ha.start, ha.notNull, ha.own, ha.count, f1, f2.trans ha.len⟩,
    ⟨ws, hb.mono (hsame _ hne.symm)⟩, hsame, e2⟩

/-- **C31** for `multi_array::operator=`: with assertions enabled, arrays of different shape are rejected and nothing is written. -/
theorem C31_multi_array_assignment (a b : MArr) (hdim : a.ref.extents ≠ []) (hne : b.ref.extents ≠ a.ref.extents) (s : St T) :
    a.assignFrom true false b s = .assertFail s := (C31_shape_mismatch_rejected a.ref.desc b.ref.desc hdim hne s).1

/-- **C32** for `multi_array::operator=`: `a = a` does nothing, in both build modes. -/
theorem C32_multi_array_self_assignment (dbg : Bool) (a : MArr) (s : St T) : a.assignFrom dbg true a s = .ok () s := rfl

/-- Two live arrays in different blocks with different bases and storage orders. -/
def exM2 : MArr := ⟨exArr2, ⟨9, 0⟩, 24, 0⟩
example : Owns exSt2 3 exM ∧ Owns exSt2 3 exM2 ∧ exM2.ref.data.blk ≠ exM.ref.data.blk ∧ exM.ref.extents = exM2.ref.extents ∧
    exM.ref.bases ≠ exM2.ref.bases ∧ exM.ref.storage ≠ exM2.ref.storage ∧
    ∃ s', exM2.assignFrom true false exM exSt2 = .ok () s' ∧ elemAt s' exM2.ref.desc [1, 1, 2] = some 16 :=
  ⟨⟨List.range 24, exArr_reachable, rfl, by decide, rfl, rfl, rfl, rfl⟩,
    ⟨List.replicate 24 99, exArr2_reachable, rfl, by decide, rfl, rfl, rfl, rfl⟩, by decide, by decide, by decide, by decide,
    _, rfl, by decide +kernel⟩

/-! ### Instances: the theorems applied to concrete cases, whose hypotheses are thereby met -/

example := C30_multi_array_assignment (s := exSt2) (a := exM2) (b := exM) ⟨List.replicate 24 99, exArr2_reachable, rfl, by decide, rfl, rfl, rfl, rfl⟩
  ⟨List.range 24, exArr_reachable, rfl, by decide, rfl, rfl, rfl, rfl⟩ (by decide) (by decide) rfl true
example := C31_multi_array_assignment exM ⟨ovArr, ⟨1, 0⟩, 3, 0⟩ (by decide) (by decide) exSt2

/- end of instances -/

end MultiArray.Props
