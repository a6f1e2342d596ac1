import Verif.Lemmas.CopyList
import Verif.Lemmas.Reach

/- Handles and memory. -/
set_option autoImplicit false

namespace MultiArray
open Spec
variable {T : Type}

theorem Spec.Handle.address_in_block {n : Nat} {root : ARef} (hr : root.WF n) {d : Desc} (h : Handle root d)
    {idx : List Int} (hidx : InBox d.bases d.extents idx) :
    ∃ k : Nat, k < root.numElements ∧ address d idx = root.data.add k := by
  obtain ⟨_, f, hf, _⟩ := h.embedding hr
  obtain ⟨h1, h2⟩ := hf idx hidx
  refine ⟨_, hr.flat_lt _ (h1.posOf_lt hr.ext_len), ?_⟩
  have e1 := hr.paren_ok true h1
  rw [hr.paren_flat true h1] at e1
  injection e1 with e1
  rw [h2, e1]; rfl

theorem Spec.Handle.address_inj {n : Nat} {root : ARef} (hr : root.WF n) {d : Desc} (h : Handle root d)
    {i j : List Int} (hi : InBox d.bases d.extents i) (hj : InBox d.bases d.extents j)
    (heq : address d i = address d j) : i = j := by
  obtain ⟨_, f, hf, hinj⟩ := h.embedding hr
  obtain ⟨a1, a2⟩ := hf i hi
  obtain ⟨b1, b2⟩ := hf j hj
  apply hinj i j hi hj
  rw [a2, b2] at heq
  have e1 := hr.paren_ok true a1
  rw [hr.paren_flat true a1] at e1
  have e2 := hr.paren_ok true b1
  rw [hr.paren_flat true b1] at e2
  injection e1 with e1
  injection e2 with e2
  have hp : root.data.add ((root.flat (posOf root.bases (f i)) : Nat) : Int) =
      root.data.add ((root.flat (posOf root.bases (f j)) : Nat) : Int) := by
    rw [e1, e2]; exact heq
  rw [Ptr.add_inj] at hp
  have hp' : root.flat (posOf root.bases (f i)) = root.flat (posOf root.bases (f j)) := by exact_mod_cast hp
  apply a1.ext_posOf b1
  intro d hd
  exact hr.flat_inj _ _ (a1.posOf_lt hr.ext_len) (b1.posOf_lt hr.ext_len) hp' d (by rw [← hr.ext_len]; exact hd)

theorem Spec.Live.handle {n : Nat} {root : ARef} (hr : root.WF n) {s : St T} (hl : Live s root) {d : Desc}
    (h : Handle root d) {idx : List Int} (hidx : InBox d.bases d.extents idx) : ∃ v, s.get? (address d idx) = some v := by
  obtain ⟨k, hk, he⟩ := h.address_in_block hr hidx
  rw [he]; exact hl k hk

theorem SameBlocks.sameStorage {s s' : St T} (h : SameBlocks s s') : SameStorage s s' := ⟨h.len, h.next⟩

theorem addrs_nodup {n : Nat} {root : ARef} (hr : root.WF n) {d : Desc} (h : Handle root d) : (addrs d).Nodup := by
  apply List.Nodup.map_on _ (allIdx_nodup _ _)
  intro x hx y hy hxy
  rw [mem_allIdx] at hx hy
  exact h.address_inj hr hx hy hxy

/-! ### Lexicographic rank -/

theorem range_mul (e P : Nat) : (List.range e).flatMap (fun x => (List.range P).map (fun y => x * P + y)) = List.range (e * P) := by
  induction e with
  | zero => simp
  | succ e ih =>
    rw [List.range_succ, List.flatMap_append, ih, Nat.succ_mul, List.range_add]
    simp

theorem allPos_rank (es : List Nat) : (allPos es).map (rowMajor es) = List.range es.prod := by
  induction es with
  | nil => rfl
  | cons e es ih =>
    rw [List.prod_cons, ← range_mul, ← ih]
    simp only [allPos, List.map_flatMap, List.map_map]
    rfl

theorem allPos_getElem? (es : List Nat) (m : Nat) (k : List Nat) (h : (allPos es)[m]? = some k) :
    InShape es k ∧ rowMajor es k = m := by
  refine ⟨(mem_allPos es k).mp (List.mem_of_getElem? h), ?_⟩
  have h2 : ((allPos es).map (rowMajor es))[m]? = some (rowMajor es k) := by rw [List.getElem?_map, h]; rfl
  rw [allPos_rank] at h2
  obtain ⟨hlt, he⟩ := List.getElem?_eq_some_iff.mp h2
  simpa using he.symm

theorem allPos_rank_get (es k : List Nat) (hk : InShape es k) : (allPos es)[rowMajor es k]? = some k := by
  obtain ⟨m, hm⟩ := List.getElem?_of_mem ((mem_allPos es k).mpr hk)
  have := (allPos_getElem? es m k hm).2
  rw [this]; exact hm

theorem rowMajor_lt (es k : List Nat) (hk : InShape es k) : rowMajor es k < es.prod := by
  have := allPos_rank_get es k hk
  have := (List.getElem?_eq_some_iff.mp this).1
  rwa [allPos_length] at this

/-! ### Whole-handle copies -/

/-- Everything needed to copy between two handles. -/
structure CopySetup (s : St T) (dst src : Desc) : Prop where
  wd : WellShaped dst
  ws : WellShaped src
  ext : src.extents = dst.extents
  ld : ∀ idx, InBox dst.bases dst.extents idx → ∃ v, s.get? (address dst idx) = some v
  ls : ∀ idx, InBox src.bases src.extents idx → ∃ v, s.get? (address src idx) = some v
  nd : (addrs dst).Nodup

theorem CopySetup.live1 {s : St T} {dst src : Desc} (h : CopySetup s dst src) :
    ∀ p ∈ copyPairs src dst, ∃ v, s.get? p.1 = some v := by
  intro p hp
  rw [copyPairs_eq_map _ _ h.ws h.wd h.ext] at hp
  obtain ⟨k, hk, rfl⟩ := List.mem_map.mp hp
  rw [mem_allPos] at hk
  exact h.ls _ (inBox_atPos h.ws.2 (by rw [h.ext]; exact hk))

theorem CopySetup.live2 {s : St T} {dst src : Desc} (h : CopySetup s dst src) :
    ∀ p ∈ copyPairs src dst, ∃ v, s.get? p.2 = some v := by
  intro p hp
  rw [copyPairs_eq_map _ _ h.ws h.wd h.ext] at hp
  obtain ⟨k, hk, rfl⟩ := List.mem_map.mp hp
  rw [mem_allPos] at hk
  exact h.ld _ (inBox_atPos h.wd.2 hk)

theorem CopySetup.disj {s : St T} {dst src : Desc} (h : CopySetup s dst src) (hno : NoOverlap dst src) :
    ∀ p ∈ copyPairs src dst, ∀ q ∈ copyPairs src dst, p.1 ≠ q.2 := by
  intro p hp q hq
  rw [copyPairs_eq_map _ _ h.ws h.wd h.ext] at hp hq
  obtain ⟨k, hk, rfl⟩ := List.mem_map.mp hp
  obtain ⟨j, hj, rfl⟩ := List.mem_map.mp hq
  rw [mem_allPos] at hk hj
  exact (hno _ _ (inBox_atPos h.wd.2 hj) (inBox_atPos h.ws.2 (by rw [h.ext]; exact hk))).symm

theorem CopySetup.snd {s : St T} {dst src : Desc} (h : CopySetup s dst src) : (copyPairs src dst).map Prod.snd = addrs dst :=
  copyPairs_snd _ _ h.ws h.wd h.ext

theorem CopySetup.length {s : St T} {dst src : Desc} (h : CopySetup s dst src) :
    (copyPairs src dst).length = dst.extents.prod := by
  rw [copyPairs_eq_map _ _ h.ws h.wd h.ext, List.length_map, allPos_length]

theorem outside_iff (d : Desc) (p : Ptr) : Outside d p ↔ p ∉ addrs d := by
  rw [mem_addrs]
  constructor
  · rintro h ⟨i, hi, rfl⟩; exact h i hi rfl
  · intro h i hi he; exact h ⟨i, hi, he⟩

/-- Successful copy between handles. -/
theorem copy_ok {s : St T} {dst src : Desc} (h : CopySetup s dst src) (hno : NoOverlap dst src)
    (hthrow : NoThrow dst.extents.prod s.sched) :
    ∃ s', copySeq (copyPairs src dst) s = .ok () s' ∧
      (∀ k, InShape dst.extents k → elemAt s' dst k = elemAt s src k) ∧
      (∀ p, Outside dst p → s'.cell? p = s.cell? p) ∧ SameBlocks s s' ∧ s'.sched = s.sched.drop dst.extents.prod := by
  obtain ⟨s', h1, h2, h3, h4, h5⟩ := copySeq_ok (copyPairs src dst) s h.live1 h.live2 (by rw [h.snd]; exact h.nd)
    (h.disj hno) (by rw [h.length]; exact hthrow)
  refine ⟨s', h1, ?_, ?_, h4, by rw [h5, h.length]⟩
  · intro k hk
    have := h2 (address src (atPos src.bases k), address dst (atPos dst.bases k))
      (by rw [copyPairs_eq_map _ _ h.ws h.wd h.ext]; exact List.mem_map.mpr ⟨k, (mem_allPos _ _).mpr hk, rfl⟩)
    simp only at this
    unfold elemAt St.get?
    rw [this]
  · intro p hp
    apply h3
    rw [h.snd, ← outside_iff]
    exact hp

/-- Copy between handles under any schedule of exceptions. -/
theorem copy_any {s : St T} {dst src : Desc} (h : CopySetup s dst src) :
    ∃ s', (copySeq (copyPairs src dst) s = .ok () s' ∨ copySeq (copyPairs src dst) s = .throw s') ∧
      (∀ p, Outside dst p → s'.cell? p = s.cell? p) ∧
      (∀ q, (∃ v, s.get? q = some v) → ∃ v, s'.get? q = some v) ∧ SameBlocks s s' ∧
      (∃ k, s'.sched = s.sched.drop k) := by
  obtain ⟨s', h1, h2, h3⟩ := copySeq_any (copyPairs src dst) s h.live1 h.live2
  refine ⟨s', h1, ?_, h3⟩
  intro p hp
  apply h2
  rw [h.snd, ← outside_iff]
  exact hp

/-- Copy between handles whose `m`-th element assignment throws. -/
theorem copy_throw {s : St T} {dst src : Desc} (h : CopySetup s dst src) (hno : NoOverlap dst src) (m : Nat)
    (hm : m < dst.extents.prod) (junk : T) (rest : List (Option T))
    (hthrow : s.sched = List.replicate m none ++ some junk :: rest) :
    ∃ s', copySeq (copyPairs src dst) s = .throw s' ∧
      (∀ k, InShape dst.extents k → elemAt s' dst k =
        if rowMajor dst.extents k < m then elemAt s src k
        else if rowMajor dst.extents k = m then some junk else elemAt s dst k) ∧
      (∀ p, Outside dst p → s'.cell? p = s.cell? p) ∧ SameBlocks s s' ∧ s'.sched = rest := by
  let F := fun k => (address src (atPos src.bases k), address dst (atPos dst.bases k))
  have hps : copyPairs src dst = (allPos dst.extents).map F := copyPairs_eq_map _ _ h.ws h.wd h.ext
  have hml : m < (allPos dst.extents).length := by rw [allPos_length]; exact hm
  obtain ⟨km, hkm⟩ : ∃ km, (allPos dst.extents)[m]? = some km := ⟨_, List.getElem?_eq_getElem hml⟩
  have hsplit : allPos dst.extents = (allPos dst.extents).take m ++ km :: (allPos dst.extents).drop (m + 1) := by
    conv_lhs => rw [← List.take_append_drop m (allPos dst.extents)]
    rw [List.drop_eq_getElem_cons hml]
    rw [List.getElem?_eq_getElem hml] at hkm
    injection hkm with hkm
    rw [hkm]
  have hps2 : copyPairs src dst = ((allPos dst.extents).take m).map F ++ F km :: ((allPos dst.extents).drop (m + 1)).map F := by
    rw [hps]; conv_lhs => rw [hsplit]
    rw [List.map_append, List.map_cons]
  have hlen : (((allPos dst.extents).take m).map F).length = m := by
    rw [List.length_map, List.length_take]; omega
  have l1 := h.live1
  have l2 := h.live2
  have l3 := h.disj hno
  have l4 : ((copyPairs src dst).map Prod.snd).Nodup := by rw [h.snd]; exact h.nd
  have l4' := l4
  rw [hps2] at l1 l2 l3 l4 ⊢
  obtain ⟨s', e1, e2, e3, e4, e5, e6⟩ := copySeq_throw (((allPos dst.extents).take m).map F)
    (((allPos dst.extents).drop (m + 1)).map F) (F km).1 (F km).2 s junk rest l1 l2 l4 l3 (by rw [hlen]; exact hthrow)
  refine ⟨s', e1, ?_, ?_, e5, e6⟩
  · intro k hk
    have hrk := allPos_rank_get _ _ hk
    -- address distinctness
    have hinj : ∀ k', InShape dst.extents k' → address dst (atPos dst.bases k') = address dst (atPos dst.bases k) → k' = k := by
      intro k' hk' heq
      have hr' := allPos_rank_get _ _ hk'
      have hnd := h.nd
      rw [addrs_eq_map _ h.wd] at hnd
      have := List.inj_on_of_nodup_map hnd (List.mem_of_getElem? hr') (List.mem_of_getElem? hrk) heq
      exact this
    by_cases hlt : rowMajor dst.extents k < m
    · rw [if_pos hlt]
      have hmem : k ∈ (allPos dst.extents).take m := by
        apply List.mem_of_getElem? (i := rowMajor dst.extents k)
        rw [List.getElem?_take, if_pos hlt, hrk]
      have := e2 (F k) (List.mem_map.mpr ⟨k, hmem, rfl⟩)
      simp only [F] at this
      unfold elemAt St.get?
      rw [this]
    · rw [if_neg hlt]
      by_cases heq : rowMajor dst.extents k = m
      · rw [if_pos heq]
        have : k = km := by rw [heq, hkm] at hrk; injection hrk with hrk; exact hrk.symm
        subst this
        unfold elemAt
        rw [St.get?_eq_some]
        exact e3
      · rw [if_neg heq]
        unfold elemAt St.get?
        rw [e4]
        · intro hmem
          rw [List.map_map] at hmem
          obtain ⟨k', hk', he'⟩ := List.mem_map.mp hmem
          have hk'' := (mem_allPos _ _).mp (List.mem_of_mem_take hk')
          have := hinj k' hk'' he'
          subst this
          obtain ⟨i, hi, hki⟩ := List.getElem_of_mem hk'
          rw [List.length_take] at hi
          have h1 : (allPos dst.extents)[i]? = some k' := by
            rw [List.getElem_take] at hki
            rw [← hki]; exact List.getElem?_eq_getElem _
          have := (allPos_getElem? _ _ _ h1).2
          omega
        · intro he'
          have := hinj km ((allPos_getElem? _ _ _ hkm).1) he'.symm
          have h2 := (allPos_getElem? _ _ _ hkm).2
          rw [this] at h2
          exact heq h2
  · intro p hp
    rw [outside_iff, ← h.snd, hps2] at hp
    simp only [List.map_append, List.map_cons, List.mem_append, List.mem_cons, not_or] at hp
    exact e4 p hp.1 hp.2.1

end MultiArray
