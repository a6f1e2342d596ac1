import Verif.SpecParallel
import Verif.Props.Conc
import Verif.Props.Overlap
import Verif.Props.Flat
import Verif.Props.Seq
import Verif.Props.AssignWith

/- Property theorems C82: loops distributed over threads by any partition of the array. -/
set_option autoImplicit false

namespace MultiArray.Props
open MultiArray MultiArray.Spec
variable {T : Type}

theorem pointsInto_iff (d : Desc) (p : Ptr) : PointsInto d p ↔ p ∈ addrs d := (mem_addrs d p).symm

theorem isHandle_nodup {d : Desc} (h : IsHandle d) : (addrs d).Nodup := by
  obtain ⟨n, root, hr, h⟩ := h
  exact addrs_nodup hr.wf h

/-- Memory states with the same blocks, the same cells and nothing due are equal. -/
theorem st_ext {s a b : St T} (h1 : SameBlocks s a) (h2 : SameBlocks s b) (hc : ∀ p, a.cell? p = b.cell? p) (hsch : a.sched = b.sched) : a = b := by
  have hh : a.heap = b.heap := by
    funext c
    exact heap_ext (fun off => hc _) (by rw [h1.len, h2.len])
  cases a; cases b
  simp only at hh hsch
  have := h1.next; have := h2.next
  simp_all

/-- The result of transforming distinct live elements. -/
theorem mapSeq_result (f : T → T) (ps : List Ptr) (s : St T) (hnd : ps.Nodup) (hl : ∀ p ∈ ps, ∃ v, s.get? p = some v) (hsch : s.sched = []) :
    ∃ s', mapSeq f ps s = .ok () s' ∧ (∀ p ∈ ps, ∀ v, s.get? p = some v → s'.cell? p = some (.obj (f v))) ∧ (∀ p, p ∉ ps → s'.cell? p = s.cell? p) ∧
      SameBlocks s s' ∧ s'.sched = [] := by
  induction ps generalizing s with
  | nil => exact ⟨s, rfl, by simp, by simp, .refl s, hsch⟩
  | cons p ps ih =>
    obtain ⟨v, hv⟩ := hl p (by simp)
    obtain ⟨hnp, hnd⟩ := List.nodup_cons.mp hnd
    obtain ⟨s1, h1, h2, h3, h4⟩ := assignCell_ok hv (f v) (.inl hsch)
    have hget : ∀ q, q ≠ p → s1.get? q = s.get? q := by
      intro q hq
      unfold St.get?
      rw [h2, if_neg hq]
    obtain ⟨s', e1, e2, e3, e4, e5⟩ := ih s1 hnd (fun q hq => by
      rw [hget q (fun e => hnp (e ▸ hq))]
      exact hl q (by simp [hq])) (by rw [h4, hsch]; rfl)
    refine ⟨s', ?_, ?_, ?_, h3.trans e4, e5⟩
    · simp only [mapSeq]
      rw [Exec.bind_ok (load_ok hv), Exec.bind_ok h1, e1]
    · intro q hq w hw
      by_cases hqp : q = p
      · subst hqp
        rw [e3 q hnp, h2, if_pos rfl]
        rw [hv] at hw; cases hw; rfl
      · exact e2 q ((List.mem_cons.mp hq).resolve_left hqp) w (by rw [hget q hqp]; exact hw)
    · intro q hq
      simp only [List.mem_cons, not_or] at hq
      rw [e3 q hq.2, h2, if_neg hq.1]

theorem flatMap_addrs_nodup {parts : List Desc} (hh : ∀ r ∈ parts, IsHandle r)
    (hdis : ∀ (i j : Nat) r r', i ≠ j → parts[i]? = some r → parts[j]? = some r' → NoOverlap r r') : (parts.flatMap addrs).Nodup := by
  induction parts with
  | nil => simp
  | cons r parts ih =>
    rw [List.flatMap_cons, List.nodup_append]
    refine ⟨isHandle_nodup (hh r (by simp)), ih (fun x hx => hh x (by simp [hx])) (fun i j x x' hij hi hj => hdis (i + 1) (j + 1) x x' (by omega) hi hj), ?_⟩
    intro a ha b hb hab
    subst hab
    obtain ⟨x, hx, hb⟩ := List.mem_flatMap.mp hb
    obtain ⟨k, hk⟩ := List.getElem?_of_mem hx
    exact noOverlap_addrs (hdis 0 (k + 1) r x (by omega) rfl hk) ha hb

/-- **C82.** A loop distributed over threads: divide an array, subarray or view `d` into parts in any way (each element in exactly one part) and let one thread per part run
`for_each(part, f)`.  Under every schedule the result is that of the sequential `for_each(d, f)`; there is no data race, and every schedule ends after the same number of steps. -/
theorem C82_parallel_for_each {n : Nat} {root : ARef} (hr : Reachable n root) {d : Desc} (h : Handle root d) (dbg : Bool) (f : T → T)
    {parts : List Desc} (hh : ∀ r ∈ parts, IsHandle r) (hp : Partition d parts) (s : St T) (hl : Live s root) (hsched : s.sched = []) :
    ∃ s' N, forEach dbg f d.extents.length d s = .ok () s' ∧
      ∀ is c, Run ⟨s, parts.map (fun r => (Thread.forEach r f .done).prog dbg)⟩ is c →
        is.length ≤ N ∧ (Finished c ↔ is.length = N) ∧ (Finished c → c.mem = s') ∧ ¬ Racing c ∧
        (∀ (i : Nat) t, c.threads[i]? = some t → t ≠ .ret () → ∃ c', Step c i c') := by
  have hw := handle_wellShaped hr h
  have hdl : ∀ p ∈ addrs d, ∃ v, s.get? p = some v := by
    intro p hp
    obtain ⟨i, hi, rfl⟩ := (mem_addrs _ _).mp hp
    exact hl.handle hr.wf h hi
  have hmem : ∀ p, p ∈ parts.flatMap addrs ↔ p ∈ addrs d := by
    intro p
    rw [← pointsInto_iff d, hp.cover p, List.mem_flatMap]
    simp only [pointsInto_iff]
  have hrl : ∀ r ∈ parts, ∀ p ∈ addrs r, ∃ v, s.get? p = some v := fun r hrm p hpr => hdl p ((hmem p).mp (List.mem_flatMap.mpr ⟨r, hrm, hpr⟩))
  let ts := parts.map (fun r => Thread.forEach r f .done)
  have hsep : Separated ts (parts.map (fun r => ((· ∈ addrs r), (· ∈ addrs r)))) s := by
    refine ⟨by simp [ts], ?_, ?_, ?_, hsched⟩
    · intro i t R W ht hfp
      simp only [ts, List.getElem?_map, Option.map_eq_some_iff] at ht hfp
      obtain ⟨r, hi, rfl⟩ := ht
      obtain ⟨r', hi', e⟩ := hfp
      rw [hi] at hi'; cases hi'; cases e
      exact ⟨hh r (List.mem_of_getElem? hi), fun idx hidx => ⟨(mem_addrs _ _).mpr ⟨idx, hidx, rfl⟩, (mem_addrs _ _).mpr ⟨idx, hidx, rfl⟩⟩, trivial⟩
    · intro i j R W R' W' hij hfp hfp' p hp'
      simp only [List.getElem?_map, Option.map_eq_some_iff] at hfp hfp'
      obtain ⟨r, hi, e⟩ := hfp
      obtain ⟨r', hj, e'⟩ := hfp'
      cases e; cases e'
      have := fun hp'' => noOverlap_addrs (hp.disjoint i j r r' hij hi hj) hp' hp''
      exact ⟨this, this⟩
    · intro i R W hfp p hp'
      simp only [List.getElem?_map, Option.map_eq_some_iff] at hfp
      obtain ⟨r, hi, e⟩ := hfp
      cases e
      exact hrl r (List.mem_of_getElem? hi) p (hp'.elim id id)
  obtain ⟨s', N, h1, h2⟩ := C62_schedule_independence dbg ts _ s hsep
  refine ⟨s', N, ?_, ?_⟩
  · rw [execAll_forEach dbg f parts (fun r hr => (hh r hr).wellShaped)] at h1
    obtain ⟨a, a1, a2, a3, a4, a5⟩ := mapSeq_result f (parts.flatMap addrs) s (flatMap_addrs_nodup hh hp.disjoint) (fun p hp' => hdl p ((hmem p).mp hp')) hsched
    obtain ⟨b, b1, b2, b3, b4, b5⟩ := mapSeq_result f (addrs d) s (addrs_nodup hr.wf h) hdl hsched
    rw [a1] at h1; cases h1
    rw [forEach_eq dbg f d hw, b1]
    congr 1
    refine st_ext b4 a4 (fun p => ?_) (by rw [a5, b5])
    by_cases hpd : p ∈ addrs d
    · obtain ⟨v, hv⟩ := hdl p hpd
      rw [b2 p hpd v hv, a2 p ((hmem p).mpr hpd) v hv]
    · rw [b3 p hpd, a3 p (fun h => hpd ((hmem p).mp h))]
  · intro is c hrun
    have hmap : parts.map (fun r => (Thread.forEach r f .done).prog dbg) = ts.map (Thread.prog dbg) := by simp [ts]
    rw [hmap] at hrun
    obtain ⟨e1, e2, e3, e4⟩ := h2 is c hrun
    exact ⟨e1, e2, e3, C62_no_data_race dbg ts _ s hsep is c hrun, e4⟩

theorem mem_copyPairs {src dst : Desc} (hs : WellShaped src) (hd : WellShaped dst) (he : src.extents = dst.extents) (x : Ptr × Ptr) :
    x ∈ copyPairs src dst ↔ ∃ k, InShape dst.extents k ∧ x = (posAddr src k, posAddr dst k) := by
  rw [copyPairs_eq_map _ _ hs hd he, List.mem_map]
  constructor
  · rintro ⟨k, hk, rfl⟩; exact ⟨k, (mem_allPos _ _).mp hk, rfl⟩
  · rintro ⟨k, hk, rfl⟩; exact ⟨k, (mem_allPos _ _).mpr hk, rfl⟩

theorem copyPairs_snd {src dst : Desc} (hs : WellShaped src) (hd : WellShaped dst) (he : src.extents = dst.extents) :
    (copyPairs src dst).map Prod.snd = addrs dst := by
  rw [copyPairs_eq_map _ _ hs hd he, addrs_eq_map dst hd, List.map_map]; rfl

theorem flatMap_copyPairs_snd {parts : List (Desc × Desc)} (hw : ∀ x ∈ parts, WellShaped x.1 ∧ WellShaped x.2 ∧ x.2.extents = x.1.extents) :
    (parts.flatMap (fun x => copyPairs x.2 x.1)).map Prod.snd = (parts.map Prod.fst).flatMap addrs := by
  induction parts with
  | nil => rfl
  | cons x parts ih =>
    obtain ⟨h1, h2, h3⟩ := hw x (by simp)
    simp only [List.flatMap_cons, List.map_append, List.map_cons]
    rw [ih (fun y hy => hw y (by simp [hy])), copyPairs_snd h2 h1 h3]

/-- **C82.** A copy distributed over threads: divide `dst` and `src` in the same way, in any way, and let one thread per part run `part_of_dst = part_of_src`.  Under every schedule the result is
that of the sequential `dst = src`. -/
theorem C82_parallel_assign {n1 n2 : Nat} {r1 r2 : ARef} (h1 : Reachable n1 r1) (h2 : Reachable n2 r2)
    {dst src : Desc} (hd : Handle r1 dst) (hs : Handle r2 src) (he : src.extents = dst.extents) (hno : NoOverlap dst src) (dbg : Bool)
    {parts : List (Desc × Desc)} (hh : ∀ x ∈ parts, IsHandle x.1 ∧ IsHandle x.2) (hp : CutTogether dst src parts)
    (s : St T) (l1 : Live s r1) (l2 : Live s r2) (hsched : s.sched = []) :
    ∃ s' N, assignOp dbg false dst src s = .ok () s' ∧
      ∀ is c, Run ⟨s, parts.map (fun x => (Thread.assign x.1 x.2 .done).prog dbg)⟩ is c →
        is.length ≤ N ∧ (Finished c ↔ is.length = N) ∧ (Finished c → c.mem = s') ∧ ¬ Racing c ∧
        (∀ (i : Nat) t, c.threads[i]? = some t → t ≠ .ret () → ∃ c', Step c i c') := by
  have hwd := handle_wellShaped h1 hd
  have hws := handle_wellShaped h2 hs
  have hld : ∀ K, InShape dst.extents K → ∃ v, s.get? (posAddr dst K) = some v := fun K hK => l1.handle h1.wf hd (inBox_atPos hwd.2 hK)
  have hls : ∀ K, InShape dst.extents K → ∃ v, s.get? (posAddr src K) = some v := fun K hK => l2.handle h2.wf hs (inBox_atPos hws.2 (by rw [he]; exact hK))
  have hpw : ∀ x ∈ parts, WellShaped x.1 ∧ WellShaped x.2 ∧ x.2.extents = x.1.extents :=
    fun x hx => ⟨(hh x hx).1.wellShaped, (hh x hx).2.wellShaped, hp.shape x hx⟩
  have hpos : ∀ {d : Desc}, WellShaped d → ∀ p, p ∈ addrs d ↔ ∃ k, InShape d.extents k ∧ p = posAddr d k := by
    intro d hw p
    rw [addrs_eq_map d hw, List.mem_map]
    constructor
    · rintro ⟨k, hk, rfl⟩; exact ⟨k, (mem_allPos _ _).mp hk, rfl⟩
    · rintro ⟨k, hk, rfl⟩; exact ⟨k, (mem_allPos _ _).mpr hk, rfl⟩
  have hs1 : ∀ x ∈ parts, ∀ p ∈ addrs x.1, ∃ K, InShape dst.extents K ∧ p = posAddr dst K := by
    intro x hx p hp'
    obtain ⟨k, hk, rfl⟩ := (hpos (hpw x hx).1 p).mp hp'
    obtain ⟨K, hK, e, _⟩ := hp.same x hx k hk
    exact ⟨K, hK, e⟩
  have hs2 : ∀ x ∈ parts, ∀ p ∈ addrs x.2, ∃ K, InShape dst.extents K ∧ p = posAddr src K := by
    intro x hx p hp'
    obtain ⟨k, hk, rfl⟩ := (hpos (hpw x hx).2.1 p).mp hp'
    obtain ⟨K, hK, _, e⟩ := hp.same x hx k (by rw [← hp.shape x hx]; exact hk)
    exact ⟨K, hK, e⟩
  have hnoK : ∀ K K', InShape dst.extents K → InShape dst.extents K' → posAddr dst K ≠ posAddr src K' := by
    intro K K' hK hK'
    exact hno _ _ (inBox_atPos hwd.2 hK) (inBox_atPos hws.2 (by rw [he]; exact hK'))
  let ts := parts.map (fun x => Thread.assign (T := T) x.1 x.2 .done)
  have hsep : Separated ts (parts.map (fun x => ((· ∈ addrs x.2), (· ∈ addrs x.1)))) s := by
    refine ⟨by simp [ts], ?_, ?_, ?_, hsched⟩
    · intro i t R W ht hfp
      simp only [ts, List.getElem?_map, Option.map_eq_some_iff] at ht hfp
      obtain ⟨x, hi, rfl⟩ := ht
      obtain ⟨x', hi', e⟩ := hfp
      rw [hi] at hi'; cases hi'; cases e
      have hx := List.mem_of_getElem? hi
      exact ⟨(hh x hx).1, (hh x hx).2, hp.shape x hx, fun idx hidx => (mem_addrs _ _).mpr ⟨idx, hidx, rfl⟩, fun idx hidx => (mem_addrs _ _).mpr ⟨idx, hidx, rfl⟩, trivial⟩
    · intro i j R W R' W' hij hfp hfp' p hp'
      simp only [List.getElem?_map, Option.map_eq_some_iff] at hfp hfp'
      obtain ⟨x, hi, e⟩ := hfp
      obtain ⟨x', hj, e'⟩ := hfp'
      cases e; cases e'
      constructor
      · intro hq
        obtain ⟨K, hK, e⟩ := hs1 x (List.mem_of_getElem? hi) p hp'
        obtain ⟨K', hK', e'⟩ := hs2 x' (List.mem_of_getElem? hj) p hq
        exact hnoK K K' hK hK' (e ▸ e')
      · intro hq
        exact noOverlap_addrs (hp.partition.disjoint i j x.1 x'.1 hij (by simp [hi]) (by simp [hj])) hp' hq
    · intro i R W hfp p hp'
      simp only [List.getElem?_map, Option.map_eq_some_iff] at hfp
      obtain ⟨x, hi, e⟩ := hfp
      cases e
      have hx := List.mem_of_getElem? hi
      rcases hp' with hp' | hp'
      · obtain ⟨K, hK, rfl⟩ := hs2 x hx p hp'; exact hls K hK
      · obtain ⟨K, hK, rfl⟩ := hs1 x hx p hp'; exact hld K hK
  obtain ⟨s', N, e1, e2⟩ := C62_schedule_independence dbg ts _ s hsep
  refine ⟨s', N, ?_, ?_⟩
  · rw [execAll_assign dbg parts hpw] at e1
    have hP : ∀ y ∈ parts.flatMap (fun x => copyPairs x.2 x.1), ∃ K, InShape dst.extents K ∧ y = (posAddr src K, posAddr dst K) := by
      intro y hy
      obtain ⟨x, hx, hy⟩ := List.mem_flatMap.mp hy
      obtain ⟨w1, w2, w3⟩ := hpw x hx
      obtain ⟨k, hk, rfl⟩ := (mem_copyPairs w2 w1 w3 y).mp hy
      obtain ⟨K, hK, a1, a2⟩ := hp.same x hx k hk
      exact ⟨K, hK, by rw [a1, a2]⟩
    have hD : ∀ y ∈ copyPairs src dst, ∃ K, InShape dst.extents K ∧ y = (posAddr src K, posAddr dst K) := fun y hy => (mem_copyPairs hws hwd he y).mp hy
    have hmem : ∀ p, p ∈ (parts.flatMap (fun x => copyPairs x.2 x.1)).map Prod.snd ↔ p ∈ addrs dst := by
      intro p
      rw [flatMap_copyPairs_snd hpw, ← pointsInto_iff dst, hp.partition.cover p, List.mem_flatMap]
      simp only [pointsInto_iff]
    have run : ∀ ps : List (Ptr × Ptr), (∀ y ∈ ps, ∃ K, InShape dst.extents K ∧ y = (posAddr src K, posAddr dst K)) → (ps.map Prod.snd).Nodup →
        ∃ s', copySeq ps s = .ok () s' ∧ (∀ p ∈ ps, s'.cell? p.2 = s.cell? p.1) ∧
          (∀ q, q ∉ ps.map Prod.snd → s'.cell? q = s.cell? q) ∧ SameBlocks s s' ∧ s'.sched = s.sched.drop ps.length := by
      intro ps hps hnd
      refine copySeq_ok ps s ?_ ?_ hnd ?_ (by rw [hsched]; exact NoThrow.nil _)
      · intro y hy; obtain ⟨K, hK, rfl⟩ := hps y hy; exact hls K hK
      · intro y hy; obtain ⟨K, hK, rfl⟩ := hps y hy; exact hld K hK
      · intro y hy z hz heq
        obtain ⟨K, hK, rfl⟩ := hps y hy
        obtain ⟨K', hK', rfl⟩ := hps z hz
        exact hnoK K' K hK' hK heq.symm
    obtain ⟨a, a1, a2, a3, a4, a5⟩ := run _ hP (by
      rw [flatMap_copyPairs_snd hpw]
      exact flatMap_addrs_nodup (fun r hr => by
        obtain ⟨x, hx, rfl⟩ := List.mem_map.mp hr
        exact (hh x hx).1) hp.partition.disjoint)
    obtain ⟨b, b1, b2, b3, b4, b5⟩ := run _ hD (by rw [copyPairs_snd hws hwd he]; exact addrs_nodup h1.wf hd)
    rw [a1] at e1; cases e1
    show assignRef dbg dst.extents.length dst src s = _
    rw [assignRef_eq dbg dst src hwd hws he, b1]
    congr 1
    refine st_ext b4 a4 (fun p => ?_) (by rw [a5, b5, hsched]; simp)
    by_cases hpd : p ∈ addrs dst
    · have hm := (hmem p).mpr hpd
      obtain ⟨y, hy, hyp⟩ := List.mem_map.mp hm
      obtain ⟨K, hK, rfl⟩ := hP y hy
      subst hyp
      rw [a2 _ hy]
      exact b2 _ ((mem_copyPairs hws hwd he _).mpr ⟨K, hK, rfl⟩)
    · rw [b3 p (by rw [copyPairs_snd hws hwd he]; exact hpd), a3 p (fun h => hpd ((hmem p).mp h))]
  · intro is c hrun
    have hmap : parts.map (fun x => (Thread.assign (T := T) x.1 x.2 .done).prog dbg) = ts.map (Thread.prog dbg) := by simp [ts]
    rw [hmap] at hrun
    obtain ⟨g1, g2, g3, g4⟩ := e2 is c hrun
    exact ⟨g1, g2, g3, C62_no_data_race dbg ts _ s hsep is c hrun, g4⟩

/-! ### Cyclic distribution: worker `j` of `s` takes every `s`-th row from row `j` on -/

theorem viewLen_strided {b : Int} {e s j : Nat} (hs : 0 < s) (hj : j ≤ e) :
    (viewLen (b + (j : Int)) (b + (e : Int)) (s : Int)).toNat = (e - j + (s - 1)) / s := by
  have hiff : ∀ k : Nat, k < (viewLen (b + (j : Int)) (b + (e : Int)) (s : Int)).toNat ↔ k < (e - j + (s - 1)) / s := by
    intro k
    have h1 := viewLen_pos (b + (j : Int)) (b + (e : Int)) (s : Int) (by omega) k
    have h2 : k < (e - j + (s - 1)) / s ↔ (k + 1) * s ≤ e - j + (s - 1) := Nat.le_div_iff_mul_le hs
    rw [h2, Int.lt_toNat, h1, Nat.add_mul]
    have hc : ((k * s : Nat) : Int) = (k : Int) * (s : Int) := Int.natCast_mul k s
    generalize (k : Int) * (s : Int) = z at hc ⊢
    generalize k * s = y at hc ⊢
    omega
  have h1 := hiff (viewLen (b + (j : Int)) (b + (e : Int)) (s : Int)).toNat
  have h2 := hiff ((e - j + (s - 1)) / s)
  omega

theorem selExtents_all (bs : List Int) (es : List Nat) (h : bs.length = es.length) :
    (selExtents (List.replicate es.length IndexRange.all) bs es).map Int.toNat = es := by
  induction es generalizing bs with
  | nil => rfl
  | cons e es ih =>
    match bs, h with
    | b :: bs, h =>
      show (viewLen (rangeStart IndexRange.all b) (rangeFinish IndexRange.all b e) IndexRange.all.stride_).toNat ::
        (selExtents (List.replicate es.length IndexRange.all) bs es).map Int.toNat = e :: es
      rw [ih bs (by simpa using h)]
      have := viewLen_strided (b := b) (e := e) (s := 1) (j := 0) (by omega) (by omega)
      simp only [Nat.cast_zero, Int.add_zero, Nat.cast_one, Nat.sub_self, Nat.sub_zero, Nat.add_zero, Nat.div_one] at this
      congr 1

theorem selected_all (bs : List Int) (es : List Nat) (ks : List Nat) (h : bs.length = es.length) (hk : InShape es ks) :
    selected (List.replicate es.length IndexRange.all) bs (ks.map (fun (x : Nat) => (x : Int))) = atPos bs ks := by
  induction es generalizing bs ks with
  | nil =>
    match bs, ks, h, hk with
    | [], [], _, _ => rfl
  | cons e es ih =>
    match bs, ks, h, hk with
    | b :: bs, k :: ks, h, hk =>
      show (b + (k : Int) * 1) :: selected (List.replicate es.length IndexRange.all) bs (ks.map (fun (x : Nat) => (x : Int))) = (b + (k : Int)) :: atPos bs ks
      rw [ih bs ks (by simpa using h) hk.2, Int.mul_one]

/-- **C82.** What worker `j`'s view is: it has `ceil((e - j) / s)` rows of the same shape, and its row `k` is the array's row `j + k * s`. -/
theorem C82_cyclic_part {n : Nat} {root : ARef} (hr : Reachable n root) {d : Desc} (h : Handle root d) (dbg : Bool)
    {b : Int} {bs : List Int} {e : Nat} {es : List Nat} (hdb : d.bases = b :: bs) (hde : d.extents = e :: es)
    (hb : -(2 ^ 63) < b) (he : b + (e : Int) < 2 ^ 63 - 1) {s j : Nat} (hs : 0 < s) (hj : j ≤ e)
    {g : IndexGen} (hg : chainIndices IndexGen.empty (stridedArgs b e s j es.length) = .ok g) {v : View} (hv : d.slice dbg g = .ok v) :
    v.desc.extents = (e - j + (s - 1)) / s :: es ∧
    ∀ k ks, InShape v.desc.extents (k :: ks) → InShape d.extents ((j + k * s) :: ks) ∧ posAddr v.desc (k :: ks) = posAddr d ((j + k * s) :: ks) := by
  have hw := handle_wellShaped hr h
  have hbl : bs.length = es.length := by have := hw.2; rw [hdb, hde] at this; simpa using this
  obtain ⟨al1, al2⟩ := all_legal bs es hbl
  have hg' := chainIndices_eq [] (stridedArgs b e s j es.length)
  change chainIndices IndexGen.empty _ = _ at hg'
  rw [hg] at hg'; cases hg'
  have hrs : (idxGen (stridedArgs b e s j es.length)).ranges =
      IndexRange.mk3 (b + (j : Int)) (b + (e : Int)) (s : Int) :: List.replicate es.length IndexRange.all := by
    simp [idxGen, genList, stridedArgs, IndexArg.toRange]
  have hnum : numRanged (idxGen (stridedArgs b e s j es.length)).ranges = (idxGen (stridedArgs b e s j es.length)).numDims := by
    have := numRanged_ranges (stridedArgs b e s j es.length) (by
      intro r hr
      simp only [stridedArgs, List.mem_cons, List.mem_replicate, IndexArg.range.injEq] at hr
      rcases hr with rfl | ⟨_, rfl⟩ <;> rfl)
    have hd : (idxGen (stridedArgs b e s j es.length)).numDims = ((stridedArgs b e s j es.length).filter IndexArg.isRange).length := rfl
    rw [hd, ← this, hrs]
    simp [stridedArgs, IndexArg.toRange]
  have hleg : LegalRanges d.bases d.extents (idxGen (stridedArgs b e s j es.length)).ranges := by
    rw [hdb, hde, hrs]
    exact ⟨strided_legal hb he hs hj, al1⟩
  have hlen : (idxGen (stridedArgs b e s j es.length)).ranges.length = d.extents.length := by
    rw [hrs, hde]; simp
  have hgen : ∀ dbg, generateArrayView dbg (idxGen (stridedArgs b e s j es.length)) d = .ok (theView (idxGen (stridedArgs b e s j es.length)) d) :=
    fun dbg => genView_legal dbg _ d hw hleg hnum
  have hv' : generateArrayView dbg (idxGen (stridedArgs b e s j es.length)) d = .ok v := hv
  rw [hgen dbg] at hv'
  cases hv'
  have h1 : rangeStart (IndexRange.mk3 (b + (j : Int)) (b + (e : Int)) (s : Int)) b = b + (j : Int) := by
    unfold rangeStart IndexRange.mk3; rw [if_neg (by dsimp only; omega)]
  have h2 : rangeFinish (IndexRange.mk3 (b + (j : Int)) (b + (e : Int)) (s : Int)) b e = b + (e : Int) := by
    unfold rangeFinish IndexRange.mk3; rw [if_neg (by dsimp only; omega)]
  have hext : (theView (idxGen (stridedArgs b e s j es.length)) d).desc.extents = (e - j + (s - 1)) / s :: es := by
    show (selExtents (idxGen (stridedArgs b e s j es.length)).ranges d.bases d.extents).map Int.toNat = _
    rw [hrs, hdb, hde]
    show (viewLen (rangeStart (IndexRange.mk3 (b + (j : Int)) (b + (e : Int)) (s : Int)) b) (rangeFinish (IndexRange.mk3 (b + (j : Int)) (b + (e : Int)) (s : Int)) b e)
      (s : Int)).toNat :: (selExtents (List.replicate es.length IndexRange.all) bs es).map Int.toNat = _
    rw [h1, h2, viewLen_strided hs hj, selExtents_all bs es hbl]
  refine ⟨hext, fun k ks hk => ?_⟩
  have hp := posAddr_view hw hlen (hgen true) .refl (k :: ks) hk
  rw [hext] at hk
  have hkm := (Nat.le_div_iff_mul_le (x := k + 1) hs).mp hk.1
  refine ⟨?_, ?_⟩
  · rw [hde]
    rw [Nat.add_mul] at hkm
    exact ⟨by generalize k * s = y at hkm ⊢; omega, hk.2⟩
  · rw [hp, hrs]
    unfold posAddr
    rw [hdb]
    congr 1
    show (rangeStart (IndexRange.mk3 (b + (j : Int)) (b + (e : Int)) (s : Int)) b + (k : Int) * (s : Int)) ::
      selected (List.replicate es.length IndexRange.all) bs (ks.map (fun (x : Nat) => (x : Int))) = (b + ((j + k * s : Nat) : Int)) :: atPos bs ks
    rw [h1, selected_all bs es ks hbl hk.2]
    push_cast
    rw [Int.add_assoc]

theorem cyclic_partition {d : Desc} {s e : Nat} (hse : s ≤ e) {view : Nat → View}
    (h1 : ∀ p, PointsInto d p ↔ ∃ j, j < s ∧ j ≤ e ∧ PointsInto (view j).desc p)
    (h2 : ∀ j j', j < s → j ≤ e → j' < s → j' ≤ e → j ≠ j' → NoOverlap (view j).desc (view j').desc) :
    Partition d ((List.range s).map (fun j => (view j).desc)) := by
  constructor
  · intro p
    rw [h1 p]
    constructor
    · rintro ⟨j, hj, _, hp⟩
      exact ⟨_, List.mem_map.mpr ⟨j, List.mem_range.mpr hj, rfl⟩, hp⟩
    · rintro ⟨r, hr, hp⟩
      obtain ⟨j, hj, rfl⟩ := List.mem_map.mp hr
      have := List.mem_range.mp hj
      exact ⟨j, this, by omega, hp⟩
  · intro i j r r' hij hi hj
    simp only [List.getElem?_map, Option.map_eq_some_iff] at hi hj
    obtain ⟨a, ha, rfl⟩ := hi
    obtain ⟨c, hc, rfl⟩ := hj
    obtain ⟨ha1, ha⟩ := List.getElem?_eq_some_iff.mp ha
    obtain ⟨hc1, hc⟩ := List.getElem?_eq_some_iff.mp hc
    simp only [List.getElem_range, List.length_range] at ha ha1 hc hc1
    subst ha; subst hc
    exact h2 i j ha1 (by omega) hc1 (by omega) hij

/-- **C82.** A cyclic loop: worker `j` of `s` runs `for_each` on `A[indices[range(b+j, b+e, s)][range()]...]`.  The views exist, and under every schedule the workers together do
what the sequential loop does, with no data race. -/
theorem C82_cyclic_for_each {n : Nat} {root : ARef} (hr : Reachable n root) {d : Desc} (h : Handle root d) (dbg : Bool)
    {b : Int} {bs : List Int} {e : Nat} {es : List Nat} (hdb : d.bases = b :: bs) (hde : d.extents = e :: es)
    (hb : -(2 ^ 63) < b) (he : b + (e : Int) < 2 ^ 63 - 1) {s : Nat} (hs : 0 < s) (hse : s ≤ e)
    (f : T → T) (st : St T) (hl : Live st root) (hsched : st.sched = []) :
    ∃ view : Nat → View,
      (∀ j, j < s → ∃ g, chainIndices IndexGen.empty (stridedArgs b e s j es.length) = .ok g ∧ d.slice dbg g = .ok (view j)) ∧
      ∃ st' N, forEach dbg f d.extents.length d st = .ok () st' ∧
        ∀ is c, Run ⟨st, (List.range s).map (fun j => (Thread.forEach (view j).desc f .done).prog dbg)⟩ is c →
          is.length ≤ N ∧ (Finished c ↔ is.length = N) ∧ (Finished c → c.mem = st') ∧ ¬ Racing c ∧
          (∀ (i : Nat) t, c.threads[i]? = some t → t ≠ .ret () → ∃ c', Step c i c') := by
  obtain ⟨view, v1, v2, v3, v4⟩ := C70_strided_views_partition hr h dbg hdb hde hb he hs
  refine ⟨view, fun j hj => v1 j hj (by omega), ?_⟩
  have hh : ∀ r ∈ (List.range s).map (fun j => (view j).desc), IsHandle r := by
    intro r hrm
    obtain ⟨j, hj, rfl⟩ := List.mem_map.mp hrm
    have := List.mem_range.mp hj
    exact ⟨n, root, hr, v4 j this (by omega)⟩
  have := C82_parallel_for_each hr h dbg f hh (cyclic_partition hse v2 v3) st hl hsched
  rw [List.map_map] at this
  exact this

/-- **C82.** A cyclic copy: worker `j` of `s` runs `A[indices[range(b+j, b+e, s)]...] = B[indices[range(b'+j, b'+e, s)]...]`.  Under every schedule the workers together do what
`A = B` does, with no data race. -/
theorem C82_cyclic_assign {n1 n2 : Nat} {r1 r2 : ARef} (h1 : Reachable n1 r1) (h2 : Reachable n2 r2)
    {dst src : Desc} (hd : Handle r1 dst) (hs : Handle r2 src) (hno : NoOverlap dst src) (dbg : Bool)
    {b b' : Int} {bs bs' : List Int} {e : Nat} {es : List Nat} (hdb : dst.bases = b :: bs) (hde : dst.extents = e :: es)
    (hsb : src.bases = b' :: bs') (hse : src.extents = e :: es)
    (hb : -(2 ^ 63) < b) (he : b + (e : Int) < 2 ^ 63 - 1) (hb' : -(2 ^ 63) < b') (he' : b' + (e : Int) < 2 ^ 63 - 1)
    {s : Nat} (hs0 : 0 < s) (hle : s ≤ e) (st : St T) (l1 : Live st r1) (l2 : Live st r2) (hsched : st.sched = []) :
    ∃ view view' : Nat → View,
      (∀ j, j < s → ∃ g, chainIndices IndexGen.empty (stridedArgs b e s j es.length) = .ok g ∧ dst.slice dbg g = .ok (view j)) ∧
      (∀ j, j < s → ∃ g, chainIndices IndexGen.empty (stridedArgs b' e s j es.length) = .ok g ∧ src.slice dbg g = .ok (view' j)) ∧
      ∃ st' N, assignOp dbg false dst src st = .ok () st' ∧
        ∀ is c, Run ⟨st, (List.range s).map (fun j => (Thread.assign (view j).desc (view' j).desc .done).prog dbg)⟩ is c →
          is.length ≤ N ∧ (Finished c ↔ is.length = N) ∧ (Finished c → c.mem = st') ∧ ¬ Racing c ∧
          (∀ (i : Nat) t, c.threads[i]? = some t → t ≠ .ret () → ∃ c', Step c i c') := by
  obtain ⟨view, v1, v2, v3, v4⟩ := C70_strided_views_partition h1 hd dbg hdb hde hb he hs0
  obtain ⟨view', w1, _, _, w4⟩ := C70_strided_views_partition h2 hs dbg hsb hse hb' he' hs0
  refine ⟨view, view', fun j hj => v1 j hj (by omega), fun j hj => w1 j hj (by omega), ?_⟩
  have hmem : ∀ x ∈ (List.range s).map (fun j => ((view j).desc, (view' j).desc)), ∃ j, j < s ∧ j ≤ e ∧ x = ((view j).desc, (view' j).desc) := by
    intro x hx
    obtain ⟨j, hj, rfl⟩ := List.mem_map.mp hx
    have := List.mem_range.mp hj
    exact ⟨j, this, by omega, rfl⟩
  have hh : ∀ x ∈ (List.range s).map (fun j => ((view j).desc, (view' j).desc)), IsHandle x.1 ∧ IsHandle x.2 := by
    intro x hx
    obtain ⟨j, hj, hje, rfl⟩ := hmem x hx
    exact ⟨⟨n1, r1, h1, v4 j hj hje⟩, ⟨n2, r2, h2, w4 j hj hje⟩⟩
  have hcut : CutTogether dst src ((List.range s).map (fun j => ((view j).desc, (view' j).desc))) := by
    refine ⟨?_, ?_, ?_⟩
    · rw [List.map_map]
      exact cyclic_partition hle v2 v3
    · intro x hx
      obtain ⟨j, hj, hje, rfl⟩ := hmem x hx
      obtain ⟨g, g1, g2⟩ := v1 j hj hje
      obtain ⟨g', g1', g2'⟩ := w1 j hj hje
      show (view' j).desc.extents = (view j).desc.extents
      rw [(C82_cyclic_part h1 hd dbg hdb hde hb he hs0 hje g1 g2).1, (C82_cyclic_part h2 hs dbg hsb hse hb' he' hs0 hje g1' g2').1]
    · intro x hx k hk
      obtain ⟨j, hj, hje, rfl⟩ := hmem x hx
      obtain ⟨g, g1, g2⟩ := v1 j hj hje
      obtain ⟨g', g1', g2'⟩ := w1 j hj hje
      obtain ⟨p1, p2⟩ := C82_cyclic_part h1 hd dbg hdb hde hb he hs0 hje g1 g2
      obtain ⟨q1, q2⟩ := C82_cyclic_part h2 hs dbg hsb hse hb' he' hs0 hje g1' g2'
      have hk' : InShape (view j).desc.extents k := hk
      have hk'' := hk'
      rw [p1] at hk'
      match k, hk', hk'' with
      | k :: ks, _, hk'' =>
        exact ⟨(j + k * s) :: ks, (p2 k ks hk'').1, (p2 k ks hk'').2, (q2 k ks (by rw [q1, ← p1]; exact hk'')).2⟩
  have := C82_parallel_assign h1 h2 hd hs (by rw [hse, hde]) hno dbg hh hcut st l1 l2 hsched
  rw [List.map_map] at this
  exact this

/-! ### Concrete cases -/

/-- Two workers double every other element of a three-element array; any interleaving of the two gives what the sequential loop gives. -/
example : ∃ view : Nat → View, ∃ st' N, forEach true (2 * ·) 1 ovArr.desc ovSt = .ok () st' ∧ elemAt st' ovArr.desc [2] = some 60 ∧
    ∀ is c, Run ⟨ovSt, (List.range 2).map (fun j => (Thread.forEach (view j).desc (2 * ·) .done).prog true)⟩ is c →
      is.length ≤ N ∧ (Finished c → c.mem = st') ∧ ¬ Racing c := by
  obtain ⟨view, _, st', N, h1, h2⟩ := C82_cyclic_for_each ovArr_reach .array true (b := 0) (bs := []) (e := 3) (es := []) rfl rfl (by decide) (by decide)
    (s := 2) (by decide) (by decide) (2 * ·) ovSt ovSt_live rfl
  refine ⟨view, st', N, h1, ?_, fun is c hrun => ⟨(h2 is c hrun).1, (h2 is c hrun).2.2.1, (h2 is c hrun).2.2.2.1⟩⟩
  have h3 : forEach true (2 * ·) 1 ovArr.desc ovSt = .ok () st' := h1
  have h4 : ∃ t, forEach true (2 * ·) 1 ovArr.desc ovSt = .ok () t ∧ elemAt t ovArr.desc [2] = some 60 := ⟨_, rfl, rfl⟩
  obtain ⟨t, t1, t2⟩ := h4
  rw [h3] at t1; cases t1
  exact t2

/-- Two workers copy a row-major matrix into a column-major one, a row each. -/
example : ∃ view view' : Nat → View, ∃ st' N, assignOp true false cvDst.desc cvSrc.desc cvSt = .ok () st' ∧
    ∀ is c, Run ⟨cvSt, (List.range 2).map (fun j => (Thread.assign (view j).desc (view' j).desc .done).prog true)⟩ is c →
      is.length ≤ N ∧ (Finished c → c.mem = st') ∧ ¬ Racing c := by
  obtain ⟨a1, a2, a3, a4, a5⟩ := cv_setup
  obtain ⟨view, view', _, _, st', N, h1, h2⟩ := C82_cyclic_assign a1 a2 .array .array a5 true (b := 0) (bs := [0]) (b' := 0) (bs' := [0]) (e := 2) (es := [2])
    rfl rfl rfl rfl (by decide) (by decide) (by decide) (by decide) (s := 2) (by decide) (by decide) cvSt a3 a4 rfl
  exact ⟨view, view', st', N, h1, fun is c hrun => ⟨(h2 is c hrun).1, (h2 is c hrun).2.2.1, (h2 is c hrun).2.2.2.1⟩⟩

end MultiArray.Props
