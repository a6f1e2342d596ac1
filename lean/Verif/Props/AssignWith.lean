import Verif.Props.Flat

/- Property theorem C72: assignment and copy_array with an arbitrary element assignment operator (other element types, conversions, side effects). -/
set_option autoImplicit false

namespace MultiArray.Props
open MultiArray MultiArray.Spec
variable {T : Type}

theorem flatAssign_eq (elt : Ptr → Ptr → Exec T Unit) (dst src : Desc) (ks : List (List Nat)) :
    flatAssign elt dst src ks = eltSeq elt (ks.map (fun k => (posAddr src k, posAddr dst k))) := by
  induction ks with
  | nil => rfl
  | cons k ks ih => simp only [flatAssign, List.map_cons, eltSeq, ih]

/-- **C72.** Whatever the element assignment operator does (convert between different element types, have side effects on memory, throw), `dst = src` and
`copy_array(src, dst)` between any two arrays, subarrays or views of equal shape apply it once per position, to the two elements at that position and nothing
else, in lexicographic order - in every memory state, with or without assertions. -/
theorem C72_elementwise {n1 n2 : Nat} {r1 r2 : ARef} (h1 : Reachable n1 r1) (h2 : Reachable n2 r2)
    {dst src : Desc} (hd : Handle r1 dst) (hs : Handle r2 src) (he : src.extents = dst.extents) (dbg : Bool)
    (elt : Ptr → Ptr → Exec T Unit) (s : St T) :
    assignOpW dbg false elt dst src s = flatAssign elt dst src (positions dst.extents) s ∧
      copyArrayW dbg elt src dst s = flatAssign elt dst src (positions dst.extents) s := by
  have w1 := handle_wellShaped h1 hd
  have w2 := handle_wellShaped h2 hs
  have hf : flatAssign elt dst src (positions dst.extents) = eltSeq elt (copyPairs src dst) := by
    rw [flatAssign_eq, positions_eq, copyPairs_eq_map _ _ w2 w1 he]
    rfl
  rw [hf]
  constructor
  · show assignRefW dbg elt dst.extents.length dst src s = _
    rw [assignRefW_eq dbg elt dst src w1 w2 he]
  · unfold copyArrayW
    simp only [he, decide_true, assertE_true, pure_bind]
    rw [← he, copyDispatchW_eq dbg elt dst src w1 w2 he]

/-- **C72.** An interrupted assignment: if the element operations at the positions before `k` complete and the one at `k` throws, the whole assignment throws in
exactly that state; no element operation is performed at a later position. -/
theorem C72_interrupted {n1 n2 : Nat} {r1 r2 : ARef} (h1 : Reachable n1 r1) (h2 : Reachable n2 r2)
    {dst src : Desc} (hd : Handle r1 dst) (hs : Handle r2 src) (he : src.extents = dst.extents) (dbg : Bool)
    (elt : Ptr → Ptr → Exec T Unit) (s s1 s2 : St T) (before after : List (List Nat)) (k : List Nat)
    (hpos : positions dst.extents = before ++ k :: after) (hbefore : flatAssign elt dst src before s = .ok () s1)
    (hk : elt (posAddr dst k) (posAddr src k) s1 = .throw s2) :
    assignOpW dbg false elt dst src s = .throw s2 ∧ copyArrayW dbg elt src dst s = .throw s2 := by
  obtain ⟨e1, e2⟩ := C72_elementwise h1 h2 hd hs he dbg elt s
  rw [e1, e2]
  have : flatAssign elt dst src (positions dst.extents) s = .throw s2 := by
    rw [hpos, flatAssign_eq, List.map_append, eltSeq_append, ← flatAssign_eq, Exec.bind_ok hbefore, List.map_cons, eltSeq, Exec.bind_throw hk]
  exact ⟨this, this⟩

/-- **C72.** With assertions enabled, a shape mismatch is rejected before any element operation, whatever the operation. -/
theorem C72_mismatch_rejected (dst src : Desc) (hdim : dst.extents ≠ []) (hne : src.extents ≠ dst.extents)
    (elt : Ptr → Ptr → Exec T Unit) (s : St T) :
    assignOpW true false elt dst src s = .assertFail s ∧ copyArrayW true elt src dst s = .assertFail s := by
  constructor
  · unfold assignOpW
    match hl : dst.extents.length with
    | 0 => simp at hl; exact absurd hl hdim
    | n + 1 =>
      simp only [Bool.false_eq_true, if_false, assignRefW, hne, decide_false]
      by_cases h : src.extents.length = dst.extents.length
      · simp only [h, decide_true, assertE_true, pure_bind]
        exact Exec.bind_assertFail rfl
      · simp only [h, decide_false]
        exact Exec.bind_assertFail rfl
  · unfold copyArrayW
    simp only [hne, decide_false]
    exact Exec.bind_assertFail rfl

theorem convSeq_ok (conv : T → T) (ps : List (Ptr × Ptr)) (s : St T)
    (hsrc : ∀ p ∈ ps, ∃ v, s.get? p.1 = some v) (hdst : ∀ p ∈ ps, ∃ v, s.get? p.2 = some v)
    (hnd : (ps.map Prod.snd).Nodup) (hdisj : ∀ p ∈ ps, ∀ q ∈ ps, p.1 ≠ q.2) (hsched : s.sched = []) :
    ∃ s', eltSeq (eltConv conv) ps s = .ok () s' ∧ (∀ p ∈ ps, s'.get? p.2 = (s.get? p.1).map conv) ∧
      (∀ q, q ∉ ps.map Prod.snd → s'.cell? q = s.cell? q) ∧ SameBlocks s s' := by
  induction ps generalizing s with
  | nil => exact ⟨s, rfl, by simp, by simp, .refl s⟩
  | cons p ps ih =>
    obtain ⟨a, b⟩ := p
    obtain ⟨v, hv⟩ := hsrc (a, b) (by simp)
    obtain ⟨w, hw⟩ := hdst (a, b) (by simp)
    simp only at hv hw
    obtain ⟨s1, h1, h2, h3, h4⟩ := assignCell_ok hw (conv v) (.inl hsched)
    simp only [List.map_cons, List.nodup_cons] at hnd
    have hkeep : ∀ q, q ≠ b → s1.cell? q = s.cell? q := fun q hq => by rw [h2, if_neg hq]
    have hget : ∀ q, q ≠ b → s1.get? q = s.get? q := fun q hq => by unfold St.get?; rw [hkeep q hq]
    have hne1 : ∀ q ∈ ps, q.1 ≠ b := fun q hq => hdisj q (by simp [hq]) (a, b) (by simp)
    have hne2 : ∀ q ∈ ps, q.2 ≠ b := by
      rintro q hq rfl
      exact hnd.1 (List.mem_map.mpr ⟨q, hq, rfl⟩)
    obtain ⟨s', e1, e2, e3, e4⟩ := ih s1
      (fun q hq => by rw [hget _ (hne1 q hq)]; exact hsrc q (by simp [hq]))
      (fun q hq => by rw [hget _ (hne2 q hq)]; exact hdst q (by simp [hq]))
      hnd.2 (fun q hq r hr => hdisj q (by simp [hq]) r (by simp [hr])) (by rw [h4, hsched]; rfl)
    refine ⟨s', ?_, ?_, ?_, h3.trans e4⟩
    · simp only [eltSeq, eltConv, bind_assoc]
      rw [Exec.bind_ok (load_ok hv), Exec.bind_ok h1]
      exact e1
    · intro q hq
      rcases List.mem_cons.mp hq with rfl | hq
      · simp only
        rw [hv, Option.map_some, St.get?_eq_some, e3 b hnd.1, h2, if_pos rfl]
      · rw [e2 q hq, hget _ (hne1 q hq)]
    · intro q hq
      simp only [List.map_cons, List.mem_cons, not_or] at hq
      rw [e3 q hq.2, hkeep q hq.1]

/-- **C72.** Assignment between arrays of different element types: `dst = src` on non-overlapping arrays, subarrays or views of equal shape makes every destination
element the conversion of the source element at the same position, and changes nothing else. -/
theorem C72_converting_assignment {n1 n2 : Nat} {r1 r2 : ARef} (h1 : Reachable n1 r1) (h2 : Reachable n2 r2)
    {dst src : Desc} (hd : Handle r1 dst) (hs : Handle r2 src) (he : src.extents = dst.extents) (s : St T)
    (l1 : Live s r1) (l2 : Live s r2) (hno : NoOverlap dst src) (hsched : s.sched = []) (dbg : Bool) (conv : T → T) :
    ∃ s', assignOpW dbg false (eltConv conv) dst src s = .ok () s' ∧ copyArrayW dbg (eltConv conv) src dst s = .ok () s' ∧
      (∀ k, InShape dst.extents k → elemAt s' dst k = (elemAt s src k).map conv ∧ elemAt s' src k = elemAt s src k) ∧
      (∀ p, Outside dst p → s'.cell? p = s.cell? p) ∧ SameStorage s s' := by
  have hc := copySetup h1 h2 hd hs he l1 l2
  obtain ⟨e1, e2⟩ := C72_elementwise h1 h2 hd hs he dbg (eltConv conv) s
  obtain ⟨s', f1, f2, f3, f4⟩ := convSeq_ok conv (copyPairs src dst) s hc.live1 hc.live2 (by rw [hc.snd]; exact hc.nd) (hc.disj hno) hsched
  have hf : flatAssign (eltConv conv) dst src (positions dst.extents) s = .ok () s' := by
    rw [flatAssign_eq, positions_eq]
    rw [copyPairs_eq_map _ _ hc.ws hc.wd he] at f1
    exact f1
  have hout : ∀ p, Outside dst p → s'.cell? p = s.cell? p := fun p hp => f3 p (by rw [hc.snd, ← outside_iff]; exact hp)
  refine ⟨s', by rw [e1, hf], by rw [e2, hf], fun k hk => ⟨?_, ?_⟩, hout, f4.sameStorage⟩
  · have := f2 (address src (atPos src.bases k), address dst (atPos dst.bases k))
      (by rw [copyPairs_eq_map _ _ hc.ws hc.wd he]; exact List.mem_map.mpr ⟨k, (mem_allPos _ _).mpr hk, rfl⟩)
    exact this
  · unfold elemAt St.get?
    rw [hout]
    intro idx hi heq
    exact hno _ _ hi (inBox_atPos hc.ws.2 (by rw [he]; exact hk)) heq.symm

/-- With the plain element assignment these are the `dst = src` and `copy_array` of the other properties. -/
theorem assignWith_plain (dbg same : Bool) (dst src : Desc) (s : St T) :
    assignOpW dbg same eltCopy dst src s = assignOp dbg same dst src s ∧ copyArrayW dbg eltCopy src dst s = copyArray dbg src dst s :=
  ⟨rfl, rfl⟩

/-- Two 2x2 arrays in one memory: `cvDst` (column-major, block 1) and `cvSrc` (row-major, block 2). -/
def cvDst : ARef := ⟨⟨1, 0⟩, StorageOrder.fortranOrder 2, [2, 2], [1, 2], [0, 0], 0, 0, 4⟩
def cvSrc : ARef := ⟨⟨2, 0⟩, StorageOrder.cOrder 2, [2, 2], [2, 1], [0, 0], 0, 0, 4⟩
def cvSt : St Nat := { heap := fun b => if b = 1 then some ⟨0, [.obj 0, .obj 0, .obj 0, .obj 0]⟩ else if b = 2 then some ⟨0, [.obj 1, .obj 2, .obj 3, .obj 4]⟩ else none, next := 3, sched := [] }

theorem cv_setup : Reachable 2 cvDst ∧ Reachable 2 cvSrc ∧ Live cvSt cvDst ∧ Live cvSt cvSrc ∧ NoOverlap cvDst.desc cvSrc.desc := by
  refine ⟨.ofExtents (n := 2) (p := ⟨1, 0⟩) (exts := [2, 2]) (fortranOrder_valid 2) rfl,
    .ofExtents (n := 2) (p := ⟨2, 0⟩) (exts := [2, 2]) (cOrder_valid 2) rfl, ?_, ?_, ?_⟩
  · intro k hk
    change k < 4 at hk
    interval_cases k <;> exact ⟨0, rfl⟩
  · intro k hk
    change k < 4 at hk
    interval_cases k
    exacts [⟨1, rfl⟩, ⟨2, rfl⟩, ⟨3, rfl⟩, ⟨4, rfl⟩]
  · intro i j _ _ h
    have : (1 : Nat) = 2 := congrArg Ptr.blk h
    omega

/-- The hypotheses are met (`cv_setup`): assigning a row-major to a column-major array through the conversion `x ↦ 10 x`. -/
example : ∃ s', assignOpW true false (eltConv (10 * ·)) cvDst.desc cvSrc.desc cvSt = .ok () s' ∧ elemAt s' cvDst.desc [0, 1] = some 20 ∧
    elemAt s' cvDst.desc [1, 0] = some 30 := ⟨_, rfl, rfl, rfl⟩

/-- An element operation that throws when the source is 3: the assignment stops at position `[1,0]`. -/
example : ∃ s', assignOpW true false (fun dst src => do let v ← load src; if v = 3 then (fun s => .throw s) else assignCell dst v)
      cvDst.desc cvSrc.desc cvSt = .throw s' ∧ elemAt s' cvDst.desc [0, 1] = some 2 ∧ elemAt s' cvDst.desc [1, 1] = some 0 :=
  ⟨_, rfl, rfl, rfl⟩

/-! ### Instances: the theorems applied to concrete cases, whose hypotheses are thereby met -/

example := C72_elementwise cv_setup.1 cv_setup.2.1 .array .array rfl true (eltConv (10 * ·)) cvSt
example := C72_mismatch_rejected cvDst.desc exArr.desc (by decide) (by decide) (eltConv (10 * ·)) cvSt
example := C72_interrupted cv_setup.1 cv_setup.2.1 .array .array rfl true (fun dst src => do let v ← load src; if v = 3 then (fun s => .throw s) else assignCell dst v) cvSt _ _
  [[0, 0], [0, 1]] [[1, 1]] [1, 0] rfl rfl rfl

/- end of instances -/

end MultiArray.Props
