import Verif.Lemmas.MachineOps
import Verif.Lemmas.Resize

/- Constructors and `resize` in 64-bit arithmetic. -/
set_option autoImplicit false

namespace MultiArray
namespace Machine
open Spec Props
variable {T : Type}

theorem InsideIndex_rep {bs : List Int} {es : List Nat} (h : InsideIndex bs es) : Representable bs es := by
  induction bs generalizing es with
  | nil => trivial
  | cons b bs ih => cases es with
    | nil => trivial
    | cons e es => exact ⟨by have := h.1; omega, by have := h.2.1; omega, ih h.2.2⟩

theorem dims_fit {n : Nat} {a : ARef} (ha : Reachable n a) (hf : HeaderFits a) : DimsFit a.bases a.extents a.strides :=
  C51_array_dims_fit ha hf.1 (InsideIndex_rep hf.2)

theorem ofExtents_eq {n : Nat} {p : Ptr} {exts : List Nat} {so : StorageOrder} {a : ARef} (hv : ValidOrder n so)
    (h : ARef.ofExtents n p exts so = .ok a) (hf : ArrayFits a) : ofExtents n p exts so = .ok a :=
  C51_construction hv (by simp) h hf

theorem extentSizes_eq (rs : List ExtentRange) (hl : LegalExtents rs) (hf : ∀ r ∈ rs, r.size < 2 ^ 63) :
    extentSizes rs = .ok (rs.map ExtentRange.size) := by
  induction rs with
  | nil => rfl
  | cons r rs ih =>
    have h1 := hl r (by simp)
    have h2 := hf r (by simp)
    have h3 : InIndex (r.second - r.first) := by
      unfold ExtentRange.size at h2
      rw [toSizeT_nonneg (by omega) (by omega)] at h2
      unfold InIndex; omega
    simp only [extentSizes, extentSize, chk_ok h3, Res.bind_ok]
    rw [ih (fun r hr => hl r (by simp [hr])) (fun r hr => hf r (by simp [hr]))]
    rfl

theorem ofExtentGen_eq {n : Nat} {p : Ptr} {g : ExtentGen} {so : StorageOrder} {a : ARef} (hv : ValidOrder n so) (hn : g.numRanges = n)
    (hlen : g.ranges.length = n) (hl : LegalExtents g.ranges) (h : ARef.ofExtentGen p g so = .ok a) (hf : ArrayFits a) :
    ofExtentGen p g so = .ok a := by
  obtain ⟨a', h', _, _, _, hb, he⟩ := ofExtentGen_ok p g hn hlen hv
  rw [h] at h'
  cases h'
  unfold ofExtentGen
  rw [extentSizes_eq _ hl (fun r hr => by
    have : r.size ∈ a.extents := by rw [he]; exact List.mem_map_of_mem hr
    have := le_sizeBound this
    unfold ArrayFits at hf
    omega), Res.bind_ok]
  unfold ARef.ofExtentGen at h
  rw [hn] at h ⊢
  exact C51_construction hv (by simp [hlen]) h hf

theorem ofShape_eq {n : Nat} {p : Ptr} {so : StorageOrder} {bs : Option (List Int)} {es : Option (List Nat)} {a : ARef} (hv : ValidOrder n so)
    (h : ARef.ofShape n p so bs es = .ok a) (hf : ArrayFits a) : ofShape n p so bs es = .ok a := by
  unfold ARef.ofShape at h
  unfold ofShape
  cases bs with
  | none =>
    simp only [Res.bind_ok] at h ⊢
    cases es with
    | none => exact C51_construction hv (by simp) h hf
    | some l => exact C51_construction hv (by simp) h hf
  | some l =>
    simp only at h ⊢
    cases hc : copyN l n with
    | assertFail => rw [hc] at h; cases h
    | ub => rw [hc] at h; cases h
    | ok b =>
      obtain ⟨rfl, hle, _⟩ := copyN_ok hc
      rw [hc] at h
      simp only [Res.bind_ok] at h ⊢
      cases es with
      | none => exact C51_construction hv (by simp [hle]) h hf
      | some l => exact C51_construction hv (by simp [hle]) h hf

theorem allocateSpace_ref {dflt : T} {ref : ARef} {al : Nat} {s s' : St T} {a : MArr} (h : MArr.allocateSpace dflt ref al s = .ok a s') :
    ∃ p, a.ref = { ref with base := p } := by
  unfold MArr.allocateSpace at h
  simp only [bind, Exec.bind] at h
  cases h1 : allocate al ref.numElems s with
  | ok p s1 =>
    rw [h1] at h
    simp only at h
    cases h2 : constructFrom dflt p ref.numElems 0 s1 with
    | ok u s2 => rw [h2] at h; simp only [pure, Exec.ret] at h; cases h; exact ⟨p, rfl⟩
    | throw s2 => rw [h2] at h; cases h
    | assertFail s2 => rw [h2] at h; cases h
    | ub => rw [h2] at h; cases h
  | throw s1 => rw [h1] at h; cases h
  | assertFail s1 => rw [h1] at h; cases h
  | ub => rw [h1] at h; cases h

theorem Exec.bind_congr {α β : Type} {x : Exec T α} {f g : α → Exec T β} (h : ∀ s a s', x s = .ok a s' → f a = g a) : x >>= f = x >>= g := by
  funext s
  show Exec.bind x f s = Exec.bind x g s
  unfold Exec.bind
  cases hx : x s with
  | ok a s' => simp only; rw [h s a s' hx]
  | throw s' => rfl
  | assertFail s' => rfl
  | ub => rfl

theorem mkConvert_eq (dbg : Bool) (dflt : T) {n : Nat} {rhs : Desc} {so : StorageOrder} {ref : ARef} (al : Nat) (hv : ValidOrder n so)
    (hn : rhs.extents.length = n) (hw : WellShaped rhs) (fr : DimsFit rhs.bases rhs.extents rhs.strides)
    (h : ARef.ofShape n Ptr.null so (some rhs.bases) (some rhs.extents) = .ok ref) (hf : HeaderFits ref) :
    mkConvert dbg dflt rhs so al = (MArr.mkConvert dbg dflt rhs so al : Exec T MArr) := by
  unfold mkConvert MArr.mkConvert
  rw [hn, h, ofShape_eq hv h hf.1]
  simp only [Exec.lift_ok, pure_bind]
  apply Exec.bind_congr
  intro s a s' hs
  obtain ⟨p, hp⟩ := allocateSpace_ref hs
  have hr : Reachable n a.ref := by rw [hp]; exact (Reachable.ofShape hv h).setBase p
  have hfa : HeaderFits a.ref := by rw [hp]; exact hf
  have fa := dims_fit hr hfa
  have hwa := hr.wf.wellShaped
  have hea : a.ref.extents = rhs.extents := by
    rw [hp]
    show ref.extents = _
    unfold ARef.ofShape at h
    simp only at h
    cases hc : copyN rhs.bases n with
    | assertFail => rw [hc] at h; cases h
    | ub => rw [hc] at h; cases h
    | ok b =>
      obtain ⟨rfl, hle, _⟩ := copyN_ok hc
      rw [hc] at h
      simp only [Res.bind_ok] at h
      obtain ⟨_, _, _, _, e5, _⟩ := ARef.init_ok h hv (by simp [hle])
      rw [e5, List.take_of_length_le (by omega)]
  obtain ⟨p1, es, ss, bs⟩ := rhs
  obtain ⟨h1, h2⟩ := hw
  have hd : a.ref.desc = ⟨a.ref.desc.base, a.ref.extents, a.ref.strides, a.ref.bases⟩ := rfl
  rw [hd]
  simp only at hea
  have hwa1 : a.ref.strides.length = a.ref.extents.length := hwa.1
  have hwa2 : a.ref.bases.length = a.ref.extents.length := hwa.2
  revert fa hwa1 hwa2
  generalize a.ref.desc.base = p2
  generalize a.ref.strides = ss2
  generalize a.ref.bases = bs2
  rw [hea]
  intro fa hwa1 hwa2
  cases es with
  | nil =>
    match bs, h2 with
    | [], _ => rfl
  | cons e es =>
    match ss, bs, ss2, bs2, h1, h2, hwa1, hwa2, fa, fr with
    | s :: ss, b :: bs, s2 :: ss2, b2 :: bs2, h1, h2, hwa1, hwa2, fa, fr =>
      rw [end_ok fr, begin, begin, begin_cons, begin_cons, end_cons]
      simp only [Exec.lift_ok, pure_bind]
      rw [dist_ok fr.2.2.1]
      simp only [Exec.lift_ok, pure_bind, It.sub, It.distanceTo, show b + (e : Int) - b = (e : Int) by omega, Int.toNat_natCast]
      rw [stdCopy_eq (body' := fun i o => do
        let s ← Exec.lift (i.deref dbg)
        let d ← Exec.lift (o.deref dbg)
        assignRef dbg (n - 1) d s) e _ _ fr.1 fr.2.1 fa.1 fa.2.1]
      intro k hk
      simp only
      rw [mach_deref dbg p1 es ss bs fr.2.2.1 fr.2.2.2.1 hk, mach_deref dbg p2 es ss2 bs2 fa.2.2.1 fa.2.2.2.1 hk,
        It.deref_in dbg p1 e es s ss b bs k hk, It.deref_in dbg p2 e es s2 ss2 b2 bs2 k hk]
      simp only [Exec.lift_ok, pure_bind]
      exact assignRefW_eq dbg eltCopy _ _ _ ⟨by simpa [subAt] using hwa1, by simpa [subAt] using hwa2⟩
        ⟨by simpa [subAt] using h1, by simpa [subAt] using h2⟩ (by simp only [List.length_cons] at hn; show es.length = _; omega)
        fa.2.2.2.2 fr.2.2.2.2 (Or.inl rfl)

/-! ### resize -/

theorem populate_eq {b : Int} {m : Nat} (h1 : -(2 ^ 63) ≤ b) (h2 : b + (m : Int) < 2 ^ 63) :
    populateIndexRanges b m = MArr.populateIndexRanges b m := by
  rw [show populateIndexRanges b m = IndexRange.mk3 b (toIndex (uadd (toSizeT b) m)) from rfl,
    show MArr.populateIndexRanges b m = IndexRange.mk3 b (b + (m : Int)) from rfl]
  rw [show toIndex (uadd (toSizeT b) m) = b + (m : Int) from by
    apply toIndex_eq
    · rw [uadd_mod, Int.add_emod, toSizeT_cast, Int.emod_emod_of_dvd _ (dvd_refl _), ← Int.add_emod]
    · unfold InIndex; omega]

theorem populates_eq {bs : List Int} {es ms : List Nat} (h : InsideIndex bs es) (hm : List.Forall₂ (· ≤ ·) ms es) :
    List.zipWith populateIndexRanges bs ms = List.zipWith MArr.populateIndexRanges bs ms := by
  induction hm generalizing bs with
  | nil => simp
  | @cons m e ms es hme hms ih => cases bs with
    | nil => simp
    | cons b bs =>
      obtain ⟨h1, h2, h3⟩ := h
      simp only [List.zipWith_cons_cons]
      rw [ih h3, populate_eq (by omega) (by omega)]

theorem populate_fit {bs ss : List Int} {es ms : List Nat} (h : InsideIndex bs es) (hm : List.Forall₂ (· ≤ ·) ms es)
    (he : ∀ e ∈ es, e < 2 ^ 63) (hs : ∀ s ∈ ss, s.natAbs < 2 ^ 63) :
    RangesFit bs es ss (List.zipWith MArr.populateIndexRanges bs ms) ∧ NoOverrun bs es (List.zipWith MArr.populateIndexRanges bs ms) ∧
      startsOf (List.zipWith MArr.populateIndexRanges bs ms) bs <+: bs := by
  induction hm generalizing bs ss with
  | nil => cases bs <;> simp [RangesFit, NoOverrun, startsOf]
  | @cons m e ms es hme hms ih => cases bs with
    | nil => simp [RangesFit, NoOverrun, startsOf]
    | cons b bs =>
      obtain ⟨h1, h2, h3⟩ := h
      obtain ⟨l1, l2, l3⟩ := populate_legal b m e hme (by omega) (by omega)
      have hst : (MArr.populateIndexRanges b m).stride_ = 1 := rfl
      have he0 := he e (by simp)
      simp only [List.zipWith_cons_cons]
      refine ⟨?_, ?_, ?_⟩
      · cases ss with
        | nil => trivial
        | cons s ss =>
          refine ⟨⟨h1, h2, he0, ?_, ?_⟩, (ih h3 (fun e he' => he e (by simp [he'])) (fun s hs' => hs s (by simp [hs']))).1⟩
          · rw [l2, l3, hst]; omega
          · rw [hst, Int.one_mul]; exact hs s (by simp)
      · refine ⟨fun hneg => absurd hneg (by rw [hst]; decide), ?_⟩
        exact (ih (ss := []) h3 (fun e he' => he e (by simp [he'])) (by simp)).2.1
      · simp only [startsOf, l2]
        exact List.prefix_cons_inj b |>.mpr (ih (ss := []) h3 (fun e he' => he e (by simp [he'])) (by simp)).2.2

theorem absDot_prefix {xs ys ss : List Int} (h : xs <+: ys) : absDot xs ss ≤ absDot ys ss := by
  induction xs generalizing ys ss with
  | nil => simp [absDot]
  | cons x xs ih => cases ys with
    | nil => simp at h
    | cons y ys =>
      obtain ⟨hxy, h'⟩ := List.cons_prefix_cons.mp h
      subst hxy
      cases ss with
      | nil => simp [absDot]
      | cons s ss => simp only [absDot]; have := ih (ss := ss) h'; omega

theorem stride_bound' {n : Nat} {a : ARef} (h : a.WF n) {s : Int} (hs : s ∈ a.strides) : s.natAbs ≤ sizeBound a.extents := by
  obtain ⟨d, hd, rfl⟩ := List.getElem_of_mem hs
  have hdn : d < n := by rw [← h.ext_len]; have := h.wellShaped.1; exact this ▸ hd
  have := csLoop_stride_bound a.storage.ascending a.extents n h.order.2 h.ext_len a.storage.ordering 1 (List.replicate n 0) a.strides (by simp)
    h.order.mem_lt h.order.nodup h.strides_eq d (h.order.1.mem_iff.mpr (by simpa using hdn))
  rw [sizeBound_perm h.order h.ext_len, Nat.one_mul, List.getD_eq_getElem?_getD, List.getElem?_eq_getElem hd] at this
  simp only [Option.getD_some] at this
  have h2 : a.strides[d].natAbs * 1 ≤ a.strides[d].natAbs * max 1 (a.extents.getD d 0) := Nat.mul_le_mul_left _ (by omega)
  omega

theorem prod_le_prod {ms es : List Nat} (h : List.Forall₂ (· ≤ ·) ms es) : ms.prod ≤ es.prod := by
  induction h with
  | nil => simp
  | cons h1 _ ih => simp only [List.prod_cons]; exact Nat.mul_le_mul h1 ih

/-- The view of the leading part of an array that fits. -/
theorem leading_fit (dbg : Bool) {n : Nat} {a : ARef} (ha : Reachable n a) (hf : HeaderFits a) {ms : List Nat} (hm : List.Forall₂ (· ≤ ·) ms a.extents)
    (N : Nat) (hN : N = a.extents.length) :
    ∃ v : View, generateArrayView dbg ⟨N, N, List.zipWith populateIndexRanges a.bases ms⟩ a.desc = .ok v ∧
      a.slice dbg ⟨N, N, List.zipWith MArr.populateIndexRanges a.bases ms⟩ = .ok v ∧ v.extents = ms ∧ WellShaped v.desc ∧
      DimsFit v.bases v.extents v.strides := by
  have hw := ha.wf.wellShaped
  have hrep := InsideIndex_rep hf.2
  obtain ⟨v, h1, h2, h3, _⟩ := leadingView dbg a.desc hw ms hm hrep N hN
  obtain ⟨l1, l2, _⟩ := populate_ranges a.bases a.extents ms hw.2 hm hrep
  have hfit := hf.1
  unfold ArrayFits at hfit
  have hgen : MultiArray.generateArrayView dbg ⟨N, N, List.zipWith MArr.populateIndexRanges a.bases ms⟩ a.desc = .ok v := h1
  have hlen : ms.length = a.extents.length := hm.length_eq
  obtain ⟨f1, f2, f3⟩ := populate_fit (ss := a.strides) hf.2 hm (fun e he => by have := le_sizeBound he; omega)
    (fun s hs => by have := stride_bound' ha.wf hs; omega)
  have hth : v = theView ⟨N, N, List.zipWith MArr.populateIndexRanges a.bases ms⟩ a.desc := by
    have := genView_legal dbg ⟨N, N, List.zipWith MArr.populateIndexRanges a.bases ms⟩ a.desc hw l1 (by rw [l2, hN, hlen])
    rw [hgen] at this
    cases this
    rfl
  have hnum : v.numElements < 2 ^ 64 := by
    have e1 : v.numElements = MultiArray.product v.extents := by rw [hth]; rfl
    rw [e1, h2, product_eq]
    have := prod_le_prod hm
    have := prod_le_sizeBound a.extents
    omega
  refine ⟨v, ?_, hgen, h2, h3, C51_view_dims_fit ha hf.1 l1 f2 (by rw [l2, hN, hlen]) hgen⟩
  rw [populates_eq hf.2 hm]
  rw [C51_views dbg ⟨N, N, List.zipWith MArr.populateIndexRanges a.bases ms⟩ a.desc f1 (by
      show absDot (startsOf (List.zipWith MArr.populateIndexRanges a.bases ms) a.bases) a.strides < 2 ^ 63
      have := absDot_prefix (ss := a.strides) f3
      omega)
    (fun u hu => by rw [hgen] at hu; cases hu; exact hnum)]
  exact hgen

theorem resizeFill_eq (dbg : Bool) {n : Nat} {a m : MArr} (ha : Reachable n a.ref) (hm : Reachable n m.ref) (fa : HeaderFits a.ref)
    (fm : HeaderFits m.ref) : (resizeFill dbg a m : Exec T Unit) = MArr.resizeFill dbg a m := by
  have hlen : m.ref.extents.length = a.ref.extents.length := by rw [ha.wf.ext_len, hm.wf.ext_len]
  obtain ⟨v, v1, v2, v3, v4, v5⟩ := leading_fit dbg ha fa (zipMin_le_right m.ref.extents a.ref.extents hlen) a.ref.extents.length rfl
  obtain ⟨u, u1, u2, u3, u4, u5⟩ := leading_fit dbg hm fm (zipMin_le_left m.ref.extents a.ref.extents hlen) a.ref.extents.length hlen.symm
  unfold resizeFill MArr.resizeFill
  simp only
  rw [v1, v2, u1, u2]
  simp only [Exec.lift_ok, pure_bind]
  exact assignOpW_eq dbg false eltCopy u.desc v.desc u4 v4 u5 v5 (.inl (by show u.extents = v.extents; rw [u3, v3]))

theorem mkExtentGen_eq {dflt : T} {n : Nat} {g : ExtentGen} {so : StorageOrder} (al : Nat) {ref : ARef} (hv : ValidOrder n so) (hn : g.numRanges = n)
    (hlen : g.ranges.length = n) (hl : LegalExtents g.ranges) (h : ARef.ofExtentGen Ptr.null g so = .ok ref) (hf : ArrayFits ref) :
    mkExtentGen dflt g so al = MArr.mkExtentGen dflt g so al := by
  unfold mkExtentGen MArr.mkExtentGen
  rw [ofExtentGen_eq hv hn hlen hl h hf, h]

theorem Member.bind_congr {α β : Type} {x : Member T α} {f g : α → Member T β} {a : MArr} {s : St T}
    (h : ∀ b s' a', x a s = (.ok b s', a') → f b a' s' = g b a' s') : (x >>= f) a s = (x >>= g) a s := by
  show Member.bind x f a s = Member.bind x g a s
  unfold Member.bind
  rcases hx : x a s with ⟨r, a'⟩
  cases r with
  | ok b s' => exact h b s' a' hx
  | throw s' => rfl
  | assertFail s' => rfl
  | ub => rfl

theorem resize_eq (dbg : Bool) (dflt : T) {n : Nat} {g : ExtentGen} {ref : ARef} {a : MArr} (ha : Reachable n a.ref) (fa : HeaderFits a.ref)
    (hn : g.numRanges = n) (hlen : g.ranges.length = n) (hl : LegalExtents g.ranges) (h : ARef.ofExtentGen Ptr.null g a.ref.storage = .ok ref)
    (hf : HeaderFits ref) (s : St T) : resize dbg dflt g a s = MArr.resize dbg dflt g a s := by
  unfold resize MArr.resize
  have hself : (Member.self : Member T MArr) a s = (.ok a s, a) := rfl
  rw [Member.bind_ok hself, Member.bind_ok hself, mkExtentGen_eq a.alloc ha.wf.order hn hlen hl h hf.1]
  apply Member.bind_congr
  intro m s1 a' hx
  rw [Member.run_apply] at hx
  simp only [Prod.mk.injEq] at hx
  obtain ⟨hx, rfl⟩ := hx
  have hm : ∃ p, m.ref = { ref with base := p } := by
    unfold MArr.mkExtentGen at hx
    rw [h, Exec.lift_ok, pure_bind] at hx
    exact allocateSpace_ref hx
  obtain ⟨p, hp⟩ := hm
  rw [resizeFill_eq dbg ha (m := m) (by rw [hp]; exact (Reachable.ofExtentGen ha.wf.order hn hlen h).setBase p) fa (by rw [hp]; exact hf)]

theorem resizeExtents_eq (dbg : Bool) (dflt : T) {n : Nat} {exts : List Nat} {ref : ARef} {a : MArr} (ha : Reachable n a.ref) (fa : HeaderFits a.ref)
    (h : ARef.ofExtents n Ptr.null exts a.ref.storage = .ok ref) (hf : HeaderFits ref) (s : St T) :
    resizeExtents dbg dflt exts a s = MArr.resizeExtents dbg dflt exts a s := by
  unfold resizeExtents MArr.resizeExtents
  apply Member.bind_congr
  rintro b s' a' hb
  cases hb
  have hnd : a.ref.numDims = n := ha.wf.ext_len
  apply Member.bind_congr
  rintro ext s' a' hb
  rw [hnd] at hb ⊢
  cases hc : copyN exts n with
  | assertFail => rw [hc] at hb; cases hb
  | ub => rw [hc] at hb; cases hb
  | ok l =>
    rw [hc] at hb
    cases hb
    obtain ⟨rfl, hle, _⟩ := copyN_ok hc
    obtain ⟨_, _, _, _, e5, _⟩ := ARef.init_ok h ha.wf.order (by simp)
    have hsmall : ∀ e ∈ exts.take n, e < 2 ^ 63 := by
      intro e he
      have := le_sizeBound (l := ref.extents) (e := e) (by rw [e5]; exact he)
      have hf1 := hf.1
      unfold ArrayFits at hf1
      omega
    have hmap : (exts.take n).map (fun (e : Nat) => ExtentRange.mk2 0 (toIndex e)) = (exts.take n).map (fun (e : Nat) => ExtentRange.mk2 0 (e : Int)) :=
      List.map_congr_left (fun e he => by rw [toIndex_nat (hsmall e he)])
    rw [hmap]
    refine resize_eq dbg dflt (n := n) (ref := ref) ha fa rfl (by simp [hle]) ?_ ?_ hf s
    · intro r hr
      obtain ⟨e, he, rfl⟩ := List.mem_map.mp hr
      have := hsmall e he
      simp only [ExtentRange.mk2]
      omega
    · rw [← h]
      unfold ARef.ofExtentGen ARef.ofExtents
      have m1 : ((exts.take n).map (fun (e : Nat) => ExtentRange.mk2 0 (e : Int))).map ExtentRange.start = List.replicate n 0 := by
        rw [List.map_map, show (ExtentRange.start ∘ fun (e : Nat) => ExtentRange.mk2 0 (e : Int)) = fun _ => 0 from rfl, List.map_const']
        simp [hle]
      have m2 : ((exts.take n).map (fun (e : Nat) => ExtentRange.mk2 0 (e : Int))).map ExtentRange.size = exts.take n := by
        rw [List.map_map]
        conv => rhs; rw [← List.map_id (exts.take n)]
        apply List.map_congr_left
        intro e he
        have := hsmall e he
        simp only [Function.comp, ExtentRange.mk2, ExtentRange.size, id]
        rw [toSizeT_nonneg (by omega) (by omega)]
        omega
      simp only
      rw [m1, m2]
      unfold ARef.init
      rw [hc, copyN_self (by simp [hle])]

end Machine
end MultiArray
