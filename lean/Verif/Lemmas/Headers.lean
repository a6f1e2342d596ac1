import Verif.Lemmas.Solo
import Verif.SpecHeaders

/- The programs of Model/Headers.lean, run without interference, do what the sequential model says; their footprints. -/
set_option autoImplicit false

namespace MultiArray
open Spec
variable {T α β : Type}

/-! ### Values that stay element values -/

/-- If all values read satisfy `E`, so do all values written. -/
def Typed (E : T → Prop) : Prog T α → Prop
  | .ret _ => True
  | .load _ k => ∀ v, E v → Typed E (k v)
  | .store _ v k => E v ∧ Typed E k
  | .assertFail => True
  | .ub => True

theorem Typed.bind {E : T → Prop} {x : Prog T α} {f : α → Prog T β} (hx : Typed E x) (hf : ∀ a, Typed E (f a)) : Typed E (x >>= f) := by
  show Typed E (Prog.bind x f)
  induction x with
  | ret a => exact hf a
  | load p k ih => exact fun v hv => ih v (hx v hv)
  | store p v k ih => exact ⟨hx.1, ih hx.2⟩
  | assertFail => trivial
  | ub => trivial

theorem Typed.lift {E : T → Prop} (r : Res α) : Typed E (Prog.lift r) := by cases r <;> trivial

theorem typed_stdCopyP {E : T → Prop} {body : It → It → Prog T Unit} (h : ∀ i o, Typed E (body i o)) : ∀ n i o, Typed E (stdCopyP body n i o)
  | 0, _, _ => trivial
  | n + 1, _, _ => Typed.bind (h _ _) (fun _ => typed_stdCopyP h n _ _)

theorem typed_assignP {E : T → Prop} (dbg : Bool) : ∀ (n : Nat) (dst src : Desc), Typed E (assignP dbg n dst src : Prog T Unit)
  | 0, dst, src => fun v hv => ⟨hv, trivial⟩
  | n + 1, dst, src => by
    unfold assignP
    exact Typed.bind (Typed.lift _) (fun _ => Typed.bind (Typed.lift _) (fun _ => Typed.bind (Typed.lift _) (fun _ => Typed.bind (Typed.lift _) (fun _ =>
      Typed.bind (Typed.lift _) (fun _ => typed_stdCopyP (fun i o => Typed.bind (Typed.lift _) (fun _ => Typed.bind (Typed.lift _) (fun _ => typed_assignP dbg n _ _))) _ _ _)))))

theorem typed_stdForEachP {E : T → Prop} {σ : Type} {body : It → σ → Prog T σ} (h : ∀ i q, Typed E (body i q)) : ∀ n i q, Typed E (stdForEachP body n i q)
  | 0, _, _ => trivial
  | n + 1, _, _ => Typed.bind (h _ _) (fun _ => typed_stdForEachP h n _ _)

theorem typed_forEachAccP {E : T → Prop} {σ : Type} (dbg : Bool) {f : σ → T → T × σ} (hf : ∀ q v, E v → E (f q v).1) : ∀ (n : Nat) (a : Desc) (q : σ), Typed E (forEachAccP dbg f n a q)
  | 0, a, q => fun v hv => ⟨hf q v hv, trivial⟩
  | n + 1, a, q => by
    unfold forEachAccP
    exact Typed.bind (Typed.lift _) (fun _ => Typed.bind (Typed.lift _) (fun _ => typed_stdForEachP (fun i q => Typed.bind (Typed.lift _) (fun _ => typed_forEachAccP dbg hf n _ _)) _ _ _))

theorem Goes.typed {R W : Ptr → Prop} {E : T → Prop} {x : Prog T α} {m m' : St T} {a : α} (h : Goes R W x m) (ht : Typed E x) (hs : m.sched = []) (hx : x.exec m = .ok a m')
    (hR : ∀ p, R p → ∃ v, m.get? p = some v ∧ E v) : ∀ p, (∃ v, m.get? p = some v ∧ E v) → ∃ v, m'.get? p = some v ∧ E v := by
  induction x generalizing m with
  | ret b =>
    cases hx
    exact fun p hp => hp
  | load p k ih =>
    obtain ⟨h1, v, h2, h3⟩ := h
    rw [exec_load h2] at hx
    obtain ⟨v', e1, e2⟩ := hR p h1
    rw [h2] at e1; cases e1
    exact ih v h3 (ht v e2) hs hx hR
  | store p v k ih =>
    obtain ⟨h1, ⟨w, h2⟩, h3⟩ := h
    rw [exec_store h2 hs] at hx
    have key : ∀ q, (∃ v, m.get? q = some v ∧ E v) → ∃ u, (m.setCell p (.obj v)).get? q = some u ∧ E u := by
      rintro q ⟨u, hu, hE⟩
      rw [St.get?_setCell h2]
      split
      · exact ⟨v, rfl, ht.1⟩
      · exact ⟨u, hu, hE⟩
    exact fun q hq => ih h3 ht.2 (by rw [St.sched_setCell]; exact hs) hx (fun q hq => key q (hR q hq)) q (key q hq)
  | assertFail => exact h.elim
  | ub => exact h.elim

/-! ### Footprint and result together -/

/-- Run without interference in `m`, the program stays in the footprint and ends with `a` in `m'`. -/
def Does (R W : Ptr → Prop) (x : Prog T α) (m : St T) (a : α) (m' : St T) : Prop := Goes R W x m ∧ x.exec m = .ok a m'

theorem Does.bind {R W : Ptr → Prop} {x : Prog T α} {f : α → Prog T β} {m m' m'' : St T} {a : α} {b : β} (hs : m.sched = []) (h1 : Does R W x m a m') (h2 : Does R W (f a) m' b m'') :
    Does R W (x >>= f) m b m'' := by
  refine ⟨h1.1.bind hs (fun a' n he => ?_), ?_⟩
  · rw [h1.2] at he; cases he
    exact h2.1
  · rw [Prog.exec_bind, Exec.bind_ok h1.2]
    exact h2.2

theorem Does.pure {R W : Ptr → Prop} (a : α) (m : St T) : Does R W (pure a : Prog T α) m a m := ⟨trivial, rfl⟩

theorem Does.lift {R W : Ptr → Prop} {r : Res α} {a : α} (h : r = .ok a) (m : St T) : Does R W (Prog.lift r : Prog T α) m a m := by
  subst h; exact ⟨trivial, rfl⟩

theorem Does.get {R W : Ptr → Prop} {p : Ptr} {v : T} {m : St T} (h : m.get? p = some v) (hR : R p) : Does R W (Prog.get p) m v m :=
  ⟨⟨hR, v, h, trivial⟩, exec_load h⟩

theorem Does.put {R W : Ptr → Prop} {p : Ptr} {v w : T} {m : St T} (hs : m.sched = []) (h : m.get? p = some w) (hW : W p) : Does R W (Prog.put p v) m () (m.setCell p (.obj v)) :=
  ⟨⟨hW, ⟨w, h⟩, trivial⟩, exec_store h hs⟩

theorem Does.sched {R W : Ptr → Prop} {x : Prog T α} {m m' : St T} {a : α} (h : Does R W x m a m') (hs : m.sched = []) : m'.sched = [] := by
  obtain ⟨a', n, n', e1, _, e3, _⟩ := h.1.exec (D := fun _ => True) hs hs (fun _ _ => trivial) (fun _ _ => rfl)
  rw [h.2] at e1; cases e1
  exact e3

theorem Does.frame {R W : Ptr → Prop} {x : Prog T α} {m m' : St T} {a : α} (h : Does R W x m a m') (hs : m.sched = []) (p : Ptr) (hp : ¬ W p) : m'.get? p = m.get? p := by
  obtain ⟨a', n, n', e1, _, _, _, _, e6, _⟩ := h.1.exec (D := fun _ => True) hs hs (fun _ _ => trivial) (fun _ _ => rfl)
  rw [h.2] at e1; cases e1
  exact (e6 p hp).symm

theorem Does.mono {R W R' W' : Ptr → Prop} {x : Prog T α} {m m' : St T} {a : α} (h : Does R W x m a m') (hR : ∀ p, R p → R' p) (hW : ∀ p, W p → W' p) : Does R' W' x m a m' :=
  ⟨h.1.mono hR hW, h.2⟩

/-! ### The members of objects -/

theorem Field.at_inj {f g : Field} {x y : Nat} (h : f.at x = g.at y) : f = g ∧ x = y := by
  unfold Field.at at h
  simp only [Ptr.mk.injEq] at h
  refine ⟨?_, h.1⟩
  have := h.2
  cases f <;> cases g <;> first | rfl | (simp [Field.place] at this)

theorem get?_field {m : St (Word T)} {f g : Field} {x : Nat} {w : Word T} (h : m.get? (f.at x) = some w) (v : Word T) :
    (m.setCell (f.at x) (.obj v)).get? (g.at x) = if g = f then some v else m.get? (g.at x) := by
  rw [St.get?_setCell h]
  by_cases hg : g = f
  · subst hg; simp
  · rw [if_neg (fun e => hg (Field.at_inj e).1), if_neg hg]

section
variable {R W : Ptr → Prop} {m : St (Word T)} {x : Nat} {f : Field}

theorem does_getPtr {p : Ptr} (h : m.get? (f.at x) = some (.ptr p)) (hR : R (f.at x)) : Does R W (getPtr x f) m p m := ⟨⟨hR, _, h, trivial⟩, exec_load h⟩
theorem does_getInt {z : Int} (h : m.get? (f.at x) = some (.int z)) (hR : R (f.at x)) : Does R W (getInt x f) m z m := ⟨⟨hR, _, h, trivial⟩, exec_load h⟩
theorem does_getSize {z : Nat} (h : m.get? (f.at x) = some (.size z)) (hR : R (f.at x)) : Does R W (getSize x f) m z m := ⟨⟨hR, _, h, trivial⟩, exec_load h⟩
theorem does_getSizes {z : List Nat} (h : m.get? (f.at x) = some (.sizes z)) (hR : R (f.at x)) : Does R W (getSizes x f) m z m := ⟨⟨hR, _, h, trivial⟩, exec_load h⟩
theorem does_getIndices {z : List Int} (h : m.get? (f.at x) = some (.indices z)) (hR : R (f.at x)) : Does R W (getIndices x f) m z m := ⟨⟨hR, _, h, trivial⟩, exec_load h⟩
theorem does_getOrder {z : StorageOrder} (h : m.get? (Field.storage.at x) = some (.order z)) (hR : R (Field.storage.at x)) : Does R W (getOrder x) m z m := ⟨⟨hR, _, h, trivial⟩, exec_load h⟩
end

theorem holding_base (o : Obj) : ∃ b off, Holding (T := T) o .base = some (.ptr b) ∧ Holding (T := T) o .originOffset = some (.int off) ∧ o.desc.base = b.add off := by
  cases o <;> exact ⟨_, _, rfl, rfl, rfl⟩
theorem holding_extents (o : Obj) : Holding (T := T) o .extents = some (.sizes o.desc.extents) := by cases o <;> rfl
theorem holding_strides (o : Obj) : Holding (T := T) o .strides = some (.indices o.desc.strides) := by cases o <;> rfl
theorem holding_bases (o : Obj) : Holding (T := T) o .bases = some (.indices o.desc.bases) := by cases o <;> rfl

theorem does_descP {R W : Ptr → Prop} {m : St (Word T)} (hs : m.sched = []) {sc : Scope} {r : HRef} {d : Desc} {o : Obj} (ho : sc r.home = some o) (hd : r.desc sc = .ok d)
    (hm : HoldsObj m r.home o) (hR : ∀ f : Field, R (f.at r.home)) : Does R W (r.descP) m d m := by
  have e1 := does_getSizes (W := W) (hm _ _ (holding_extents o)) (hR _)
  have e2 := does_getIndices (W := W) (hm _ _ (holding_strides o)) (hR _)
  have e3 := does_getIndices (W := W) (hm _ _ (holding_bases o)) (hR _)
  cases r with
  | obj x =>
    simp only [HRef.home] at ho hm hR e1 e2 e3
    obtain ⟨b, off, k1, k2, k3⟩ := holding_base (T := T) o
    simp only [HRef.desc, ho, Res.ok.injEq] at hd
    subst hd
    refine (does_getPtr (hm _ _ k1) (hR _)).bind hs ((does_getInt (hm _ _ k2) (hR _)).bind hs (e1.bind hs (e2.bind hs (e3.bind hs ?_))))
    rw [← k3]
    exact Does.pure _ _
  | sub s =>
    simp only [HRef.home] at ho hm hR e1 e2 e3
    simp only [HRef.desc, SubObj.desc, ho, Res.ok.injEq] at hd
    subst hd
    exact e1.bind hs (e2.bind hs (e3.bind hs (Does.pure _ _)))

/-! ### The modifiers -/

/-- The members of the object are live. -/
theorem HoldsObj.live {m : St (Word T)} {x : Nat} {o : Obj} (h : HoldsObj m x o) {f : Field} {w : Word T} (hf : Holding o f = some w) : m.get? (f.at x) = some w := h f w hf

theorem does_setBases_array {R W : Ptr → Prop} {m : St (Word T)} (hs : m.sched = []) {x : Nat} {a : ARef} (hm : HoldsObj m x (.array a)) (hR : ∀ f : Field, R (f.at x)) (hW : ∀ f : Field, W (f.at x))
    (n : Nat) (bs : List Int) : ∃ m', Does R W (setBasesP x ⟨false, n⟩ bs) m () m' ∧
      HoldsObj m' x (.array { a with bases := bs, originOffset := calcOriginOffset a.strides a.extents a.storage bs }) := by
  have h1 := hm .bases _ rfl
  let m1 := m.setCell (Field.bases.at x) (.obj (.indices bs))
  have hs1 : m1.sched = [] := by rw [St.sched_setCell]; exact hs
  have g1 : ∀ g : Field, m1.get? (g.at x) = if g = .bases then some (.indices bs) else m.get? (g.at x) := fun g => get?_field h1 _
  have h2 : m1.get? (Field.originOffset.at x) = some (.int a.originOffset) := by rw [g1]; exact hm .originOffset _ rfl
  refine ⟨m1.setCell (Field.originOffset.at x) (.obj (.int (calcOriginOffset a.strides a.extents a.storage bs))), ?_, ?_⟩
  · refine (Does.put (m := m) hs h1 (hW _)).bind hs ?_
    refine (does_getIndices (m := m1) (z := a.strides) (by rw [g1]; exact hm .strides _ rfl) (hR _)).bind hs1 ?_
    show Does R W (getSizes x .extents >>= _) m1 () _
    refine (does_getSizes (m := m1) (z := a.extents) (by rw [g1]; exact hm .extents _ rfl) (hR _)).bind hs1 ?_
    refine (does_getOrder (m := m1) (z := a.storage) (by rw [g1]; exact hm .storage _ rfl) (hR _)).bind hs1 ?_
    refine (does_getIndices (m := m1) (z := bs) (by rw [g1, if_pos rfl]) (hR _)).bind hs1 ?_
    exact Does.put hs1 h2 (hW _)
  · intro f w hf
    rw [get?_field h2, g1]
    have := hm f
    cases f <;> simp_all [Holding]

theorem does_setBases_view {R W : Ptr → Prop} {m : St (Word T)} (hs : m.sched = []) {x : Nat} {v : View} (hm : HoldsObj m x (.view v)) (hR : ∀ f : Field, R (f.at x)) (hW : ∀ f : Field, W (f.at x))
    (n : Nat) (bs : List Int) : ∃ m', Does R W (setBasesP x ⟨true, n⟩ bs) m () m' ∧
      HoldsObj m' x (.view { v with bases := bs, originOffset := calcIndexingOffset v.strides bs }) := by
  have h1 := hm .bases _ rfl
  let m1 := m.setCell (Field.bases.at x) (.obj (.indices bs))
  have hs1 : m1.sched = [] := by rw [St.sched_setCell]; exact hs
  have g1 : ∀ g : Field, m1.get? (g.at x) = if g = .bases then some (.indices bs) else m.get? (g.at x) := fun g => get?_field h1 _
  have h2 : m1.get? (Field.originOffset.at x) = some (.int v.originOffset) := by rw [g1]; exact hm .originOffset _ rfl
  refine ⟨m1.setCell (Field.originOffset.at x) (.obj (.int (calcIndexingOffset v.strides bs))), ?_, ?_⟩
  · refine (Does.put (m := m) hs h1 (hW _)).bind hs ?_
    refine (does_getIndices (m := m1) (z := v.strides) (by rw [g1]; exact hm .strides _ rfl) (hR _)).bind hs1 ?_
    show Does R W (getIndices x .bases >>= _) m1 () _
    refine (does_getIndices (m := m1) (z := bs) (by rw [g1, if_pos rfl]) (hR _)).bind hs1 ?_
    exact Does.put hs1 h2 (hW _)
  · intro f w hf
    rw [get?_field h2, g1]
    have := hm f
    cases f <;> simp_all [Holding]

theorem does_reshape {R W : Ptr → Prop} {m : St (Word T)} (hs : m.sched = []) {x : Nat} {a a' : ARef} (hm : HoldsObj m x (.array a)) (hR : ∀ f : Field, R (f.at x)) (hW : ∀ f : Field, W (f.at x))
    {dbg : Bool} {exts : List Nat} (hre : a.reshape dbg exts = .ok a') : ∃ m', Does R W (reshapeP dbg x exts) m () m' ∧ HoldsObj m' x (.array a') := by
  unfold ARef.reshape at hre
  cases h1 : Res.assert dbg (decide (a.numElems = product exts)) with
  | assertFail => rw [h1] at hre; cases hre
  | ub => rw [h1] at hre; cases hre
  | ok u =>
    rw [h1, Res.bind_ok] at hre
    cases h2 : copyPrefix exts a.extents with
    | assertFail => rw [h2] at hre; cases hre
    | ub => rw [h2] at hre; cases hre
    | ok es =>
      rw [h2, Res.bind_ok] at hre
      cases h3 : computeStrides a.strides es a.storage with
      | assertFail => rw [h3] at hre; cases hre
      | ub => rw [h3] at hre; cases hre
      | ok ss =>
        rw [h3, Res.bind_ok] at hre
        cases hre
        have k1 := hm .extents _ rfl
        let m1 := m.setCell (Field.extents.at x) (.obj (.sizes es))
        have hs1 : m1.sched = [] := by rw [St.sched_setCell]; exact hs
        have g1 : ∀ g : Field, m1.get? (g.at x) = if g = .extents then some (.sizes es) else m.get? (g.at x) := fun g => get?_field k1 _
        have k2 : m1.get? (Field.strides.at x) = some (.indices a.strides) := by rw [g1]; exact hm .strides _ rfl
        let m2 := m1.setCell (Field.strides.at x) (.obj (.indices ss))
        have hs2 : m2.sched = [] := by rw [St.sched_setCell]; exact hs1
        have g2 : ∀ g : Field, m2.get? (g.at x) = if g = .strides then some (.indices ss) else m1.get? (g.at x) := fun g => get?_field k2 _
        have k3 : m2.get? (Field.originOffset.at x) = some (.int a.originOffset) := by rw [g2, if_neg (by simp), g1]; exact hm .originOffset _ rfl
        refine ⟨m2.setCell (Field.originOffset.at x) (.obj (.int (calcOriginOffset ss es a.storage a.bases))), ?_, ?_⟩
        · unfold reshapeP
          refine (does_getSize (hm .numElems _ rfl) (hR _)).bind hs ?_
          refine (Does.lift h1 _).bind hs ?_
          refine (does_getSizes (hm .extents _ rfl) (hR _)).bind hs ?_
          refine (Does.lift h2 _).bind hs ?_
          refine (Does.put hs k1 (hW _)).bind hs ?_
          refine (does_getIndices (m := m1) k2 (hR _)).bind hs1 ?_
          refine (does_getSizes (m := m1) (z := es) (by rw [g1, if_pos rfl]) (hR _)).bind hs1 ?_
          refine (does_getOrder (m := m1) (z := a.storage) (by rw [g1]; exact hm .storage _ rfl) (hR _)).bind hs1 ?_
          refine (Does.lift h3 _).bind hs1 ?_
          refine (Does.put hs1 k2 (hW _)).bind hs1 ?_
          refine (does_getIndices (m := m2) (z := ss) (by rw [g2, if_pos rfl]) (hR _)).bind hs2 ?_
          refine (does_getSizes (m := m2) (z := es) (by rw [g2, if_neg (by simp), g1, if_pos rfl]) (hR _)).bind hs2 ?_
          refine (does_getIndices (m := m2) (z := a.bases) (by rw [g2, if_neg (by simp), g1]; exact hm .bases _ rfl) (hR _)).bind hs2 ?_
          exact Does.put hs2 k3 (hW _)
        · intro f w hf
          rw [get?_field k3, g2, g1]
          have := hm f
          cases f <;> simp_all [Holding]

theorem does_change {R W : Ptr → Prop} {m : St (Word T)} (hs : m.sched = []) {x : Nat} {o o' : Obj} (hm : HoldsObj m x o) (hR : ∀ f : Field, R (f.at x)) (hW : ∀ f : Field, W (f.at x))
    {op : HdrOp} (ha : op.apply o = .ok o') : ∃ m', Does R W (op.prog x (TypeOf o)) m () m' ∧ HoldsObj m' x o' := by
  cases op with
  | reindex bs =>
    cases o with
    | array a =>
      simp only [HdrOp.apply, ARef.reindexList] at ha
      cases h : copyN bs a.numDims with
      | ok bs' =>
        rw [h] at ha; cases ha
        obtain ⟨m', e1, e2⟩ := does_setBases_array hs hm hR hW a.numDims bs'
        exact ⟨m', (Does.lift h _).bind hs e1, e2⟩
      | assertFail => rw [h] at ha; cases ha
      | ub => rw [h] at ha; cases ha
    | view v =>
      simp only [HdrOp.apply, View.reindexList] at ha
      cases h : copyN bs v.numDims with
      | ok bs' =>
        rw [h] at ha; cases ha
        obtain ⟨m', e1, e2⟩ := does_setBases_view hs hm hR hW v.numDims bs'
        exact ⟨m', (Does.lift h _).bind hs e1, e2⟩
      | assertFail => rw [h] at ha; cases ha
      | ub => rw [h] at ha; cases ha
  | reindexAll b =>
    cases o with
    | array a => cases ha; exact does_setBases_array hs hm hR hW a.numDims _
    | view v => cases ha; exact does_setBases_view hs hm hR hW v.numDims _
  | reshape dbg es =>
    cases o with
    | array a =>
      simp only [HdrOp.apply] at ha
      cases h : a.reshape dbg es with
      | ok a' =>
        rw [h] at ha; cases ha
        exact does_reshape hs hm hR hW h
      | assertFail => rw [h] at ha; cases ha
      | ub => rw [h] at ha; cases ha
    | view v => cases ha

theorem does_slice {R W : Ptr → Prop} {m : St (Word T)} (hs : m.sched = []) {sc : Scope} {r : HRef} {d : Desc} {o : Obj} {y : Nat} {v u : View} {g : IndexGen} {dbg : Bool}
    (ho : sc r.home = some o) (hd : r.desc sc = .ok d) (hm : HoldsObj m r.home o) (hR : ∀ f : Field, R (f.at r.home)) (hy : HoldsObj m y (.view u)) (hW : ∀ f : Field, W (f.at y))
    (hv : generateArrayView dbg g d = .ok v) : ∃ m', Does R W (r.sliceP dbg g y) m () m' ∧ HoldsObj m' y (.view v) := by
  let m1 := m.setCell (Field.base.at y) (.obj (.ptr v.base))
  have g1 : ∀ f : Field, m1.get? (f.at y) = if f = .base then some (.ptr v.base) else m.get? (f.at y) := fun f => get?_field (hy .base _ rfl) _
  have hs1 : m1.sched = [] := by rw [St.sched_setCell]; exact hs
  have k1 : m1.get? (Field.originOffset.at y) = some (.int u.originOffset) := by rw [g1]; exact hy .originOffset _ rfl
  let m2 := m1.setCell (Field.originOffset.at y) (.obj (.int v.originOffset))
  have g2 : ∀ f : Field, m2.get? (f.at y) = if f = .originOffset then some (.int v.originOffset) else m1.get? (f.at y) := fun f => get?_field k1 _
  have hs2 : m2.sched = [] := by rw [St.sched_setCell]; exact hs1
  have k2 : m2.get? (Field.bases.at y) = some (.indices u.bases) := by rw [g2, if_neg (by simp), g1]; exact hy .bases _ rfl
  let m3 := m2.setCell (Field.bases.at y) (.obj (.indices v.bases))
  have g3 : ∀ f : Field, m3.get? (f.at y) = if f = .bases then some (.indices v.bases) else m2.get? (f.at y) := fun f => get?_field k2 _
  have hs3 : m3.sched = [] := by rw [St.sched_setCell]; exact hs2
  have k3 : m3.get? (Field.extents.at y) = some (.sizes u.extents) := by rw [g3, if_neg (by simp), g2, if_neg (by simp), g1]; exact hy .extents _ rfl
  let m4 := m3.setCell (Field.extents.at y) (.obj (.sizes v.extents))
  have g4 : ∀ f : Field, m4.get? (f.at y) = if f = .extents then some (.sizes v.extents) else m3.get? (f.at y) := fun f => get?_field k3 _
  have hs4 : m4.sched = [] := by rw [St.sched_setCell]; exact hs3
  have k4 : m4.get? (Field.strides.at y) = some (.indices u.strides) := by rw [g4, if_neg (by simp), g3, if_neg (by simp), g2, if_neg (by simp), g1]; exact hy .strides _ rfl
  let m5 := m4.setCell (Field.strides.at y) (.obj (.indices v.strides))
  have g5 : ∀ f : Field, m5.get? (f.at y) = if f = .strides then some (.indices v.strides) else m4.get? (f.at y) := fun f => get?_field k4 _
  have hs5 : m5.sched = [] := by rw [St.sched_setCell]; exact hs4
  have k5 : m5.get? (Field.numElems.at y) = some (.size u.numElems) := by rw [g5, if_neg (by simp), g4, if_neg (by simp), g3, if_neg (by simp), g2, if_neg (by simp), g1]; exact hy .numElems _ rfl
  refine ⟨m5.setCell (Field.numElems.at y) (.obj (.size v.numElems)), ?_, ?_⟩
  · refine (does_descP hs ho hd hm hR).bind hs ((Does.lift hv _).bind hs ?_)
    refine (Does.put hs (hy .base _ rfl) (hW _)).bind hs ?_
    refine (Does.put hs1 k1 (hW _)).bind hs1 ?_
    refine (Does.put hs2 k2 (hW _)).bind hs2 ?_
    refine (Does.put hs3 k3 (hW _)).bind hs3 ?_
    refine (Does.put hs4 k4 (hW _)).bind hs4 ?_
    exact Does.put hs5 k5 (hW _)
  · intro f w hf
    rw [get?_field k5, g5, g4, g3, g2, g1]
    cases f <;> simp_all [Holding]

end MultiArray
