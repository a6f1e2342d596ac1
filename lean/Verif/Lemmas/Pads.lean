import Verif.Lemmas.Headers

/- Programs with extra reads: the algorithms of Model/Headers.lean are those of Model/Steps.lean with reads of data members in between. -/
set_option autoImplicit false

namespace MultiArray
open Spec
variable {T α β : Type}

/-- `x` is `y` with additional reads of cells whose contents `H` are known. -/
inductive Pads (H : Ptr → T → Prop) : Prog T α → Prog T α → Prop
  | ret (a : α) : Pads H (.ret a) (.ret a)
  | load {p : Ptr} {k k' : T → Prog T α} : (∀ v, Pads H (k v) (k' v)) → Pads H (.load p k) (.load p k')
  | store {p : Ptr} {v : T} {k k' : Prog T α} : Pads H k k' → Pads H (.store p v k) (.store p v k')
  | pad {p : Ptr} {w : T} {k : T → Prog T α} {y : Prog T α} : H p w → Pads H (k w) y → Pads H (.load p k) y
  | assertFail : Pads H .assertFail .assertFail
  | ub : Pads H .ub .ub

theorem Pads.bind {H : Ptr → T → Prop} {x y : Prog T α} {f g : α → Prog T β} (h : Pads H x y) (hf : ∀ a, Pads H (f a) (g a)) : Pads H (x >>= f) (y >>= g) := by
  show Pads H (Prog.bind x f) (Prog.bind y g)
  induction h with
  | ret a => exact hf a
  | load _ ih => exact .load ih
  | store _ ih => exact .store ih
  | pad hp _ ih => exact .pad hp ih
  | assertFail => exact .assertFail
  | ub => exact .ub

/-- A program that only reads known cells, followed by something. -/
theorem Pads.pre {H : Ptr → T → Prop} {x : Prog T α} {a : α} {f : α → Prog T β} {y : Prog T β} (h : Pads H x (.ret a)) (hf : Pads H (f a) y) : Pads H (x >>= f) y := by
  show Pads H (Prog.bind x f) y
  generalize hz : (Prog.ret a : Prog T α) = z at h
  induction h with
  | ret b => cases hz; exact hf
  | load _ _ => cases hz
  | store _ _ => cases hz
  | pad hp _ ih => exact .pad hp (ih hz)
  | assertFail => cases hz
  | ub => cases hz

theorem Pads.refl {H : Ptr → T → Prop} (x : Prog T α) : Pads H x x := by
  induction x with
  | ret a => exact .ret a
  | load p k ih => exact .load ih
  | store p v k ih => exact .store ih
  | assertFail => exact .assertFail
  | ub => exact .ub

/-- Both begin with the same memory-independent computation. -/
theorem Pads.lift {H : Ptr → T → Prop} (r : Res α) {f g : α → Prog T β} (h : ∀ a, r = .ok a → Pads H (f a) (g a)) : Pads H (Prog.lift r >>= f) (Prog.lift r >>= g) := by
  cases r with
  | ok a => exact h a rfl
  | assertFail => exact .assertFail
  | ub => exact .ub

theorem Pads.goes {H : Ptr → T → Prop} {R W : Ptr → Prop} {x y : Prog T α} (h : Pads H x y) {m : St T} (hm : ∀ p w, H p w → m.get? p = some w ∧ R p ∧ ¬ W p) (hg : Goes R W y m) :
    Goes R W x m := by
  induction h generalizing m with
  | ret a => exact hg
  | load _ ih => obtain ⟨h1, v, h2, h3⟩ := hg; exact ⟨h1, v, h2, ih v hm h3⟩
  | store _ ih =>
    obtain ⟨h1, ⟨w, h2⟩, h3⟩ := hg
    refine ⟨h1, ⟨w, h2⟩, ih (fun q u hq => ?_) h3⟩
    obtain ⟨e1, e2, e3⟩ := hm q u hq
    refine ⟨?_, e2, e3⟩
    rw [St.get?_setCell h2, if_neg (by rintro rfl; exact e3 h1)]
    exact e1
  | pad hp _ ih => exact ⟨(hm _ _ hp).2.1, _, (hm _ _ hp).1, ih hm hg⟩
  | assertFail => exact hg
  | ub => exact hg

theorem Pads.exec {H : Ptr → T → Prop} {R W : Ptr → Prop} {x y : Prog T α} (h : Pads H x y) {m : St T} (hs : m.sched = []) (hm : ∀ p w, H p w → m.get? p = some w ∧ R p ∧ ¬ W p)
    (hg : Goes R W y m) : x.exec m = y.exec m := by
  induction h generalizing m with
  | ret a => rfl
  | load _ ih =>
    obtain ⟨h1, v, h2, h3⟩ := hg
    rw [exec_load h2, exec_load h2]
    exact ih v hs hm h3
  | store _ ih =>
    obtain ⟨h1, ⟨w, h2⟩, h3⟩ := hg
    rw [exec_store h2 hs, exec_store h2 hs]
    refine ih (by rw [St.sched_setCell]; exact hs) (fun q u hq => ?_) h3
    obtain ⟨e1, e2, e3⟩ := hm q u hq
    refine ⟨?_, e2, e3⟩
    rw [St.get?_setCell h2, if_neg (by rintro rfl; exact e3 h1)]
    exact e1
  | pad hp _ ih => rw [exec_load (hm _ _ hp).1]; exact ih hs hm hg
  | assertFail => rfl
  | ub => rfl

/-! ### The algorithms -/

/-- The data members of the objects `D` of the scope. -/
def Members (sc : Scope) (D : Nat → Prop) (p : Ptr) (w : Word T) : Prop := ∃ x o, ∃ f : Field, D x ∧ sc x = some o ∧ Holding o f = some w ∧ p = f.at x

section
variable {sc : Scope} {D : Nat → Prop} {dbg : Bool}

/-- The object behind a descriptor. -/
theorem desc_cases {r : HRef} {d : Desc} (h : r.desc sc = .ok d) : ∃ o, sc r.home = some o ∧ d.extents = o.desc.extents.drop r.depth ∧ d.strides = o.desc.strides.drop r.depth ∧
    d.bases = o.desc.bases.drop r.depth ∧ SubObj.desc sc ⟨d.base, r.home, r.depth⟩ = .ok d := by
  cases r with
  | obj x =>
    simp only [HRef.desc] at h
    cases ho : sc x with
    | none => rw [ho] at h; cases h
    | some o =>
      rw [ho] at h; cases h
      refine ⟨o, ho, rfl, rfl, rfl, ?_⟩
      simp only [SubObj.desc, HRef.home, HRef.depth, ho, List.drop_zero]
  | sub s =>
    simp only [HRef.desc, SubObj.desc] at h
    cases ho : sc s.owner with
    | none => rw [ho] at h; cases h
    | some o =>
      rw [ho] at h; cases h
      refine ⟨o, ho, rfl, rfl, rfl, ?_⟩
      simp only [SubObj.desc, HRef.home, HRef.depth, ho]

theorem pads_sizes {x : Nat} {o : Obj} (hx : D x) (ho : sc x = some o) : Pads (Members (T := T) sc D) (getSizes x .extents) (.ret o.desc.extents) := by
  refine .pad (w := .sizes o.desc.extents) ⟨x, o, .extents, hx, ho, by cases o <;> rfl, rfl⟩ (.ret _)

theorem pads_bases {x : Nat} {o : Obj} (hx : D x) (ho : sc x = some o) : Pads (Members (T := T) sc D) (getIndices x .bases) (.ret o.desc.bases) := by
  refine .pad (w := .indices o.desc.bases) ⟨x, o, .bases, hx, ho, by cases o <;> rfl, rfl⟩ (.ret _)

theorem pads_strides {x : Nat} {o : Obj} (hx : D x) (ho : sc x = some o) : Pads (Members (T := T) sc D) (getIndices x .strides) (.ret o.desc.strides) := by
  refine .pad (w := .indices o.desc.strides) ⟨x, o, .strides, hx, ho, by cases o <;> rfl, rfl⟩ (.ret _)

theorem pads_shape {r : HRef} {d : Desc} (hx : D r.home) (h : r.desc sc = .ok d) : Pads (Members (T := T) sc D) r.shapeP (.ret d.extents) := by
  obtain ⟨o, ho, h1, _⟩ := desc_cases h
  rw [h1]
  exact (pads_sizes hx ho).pre (.ret _)

theorem pads_origin {r : HRef} {d : Desc} (hx : D r.home) (h : r.desc sc = .ok d) : Pads (Members (T := T) sc D) r.originP (.ret d.base) := by
  cases r with
  | sub s =>
    simp only [HRef.desc, SubObj.desc] at h
    cases ho : sc s.owner with
    | none => rw [ho] at h; cases h
    | some o => rw [ho] at h; cases h; exact .ret _
  | obj x =>
    simp only [HRef.desc] at h
    cases ho : sc x with
    | none => rw [ho] at h; cases h
    | some o =>
      rw [ho] at h; cases h
      cases o with
      | array a =>
        refine .pad (w := .ptr a.base) ⟨x, _, .base, hx, ho, rfl, rfl⟩ ?_
        show Pads _ (Prog.load (Field.originOffset.at x) _) _
        exact .pad (w := .int a.originOffset) ⟨x, _, .originOffset, hx, ho, rfl, rfl⟩ (.ret _)
      | view v =>
        refine .pad (w := .ptr v.base) ⟨x, _, .base, hx, ho, rfl, rfl⟩ ?_
        show Pads _ (Prog.load (Field.originOffset.at x) _) _
        exact .pad (w := .int v.originOffset) ⟨x, _, .originOffset, hx, ho, rfl, rfl⟩ (.ret _)

/-- The iterator object and the iterator of the sequential model. -/
structure SeesIt (sc : Scope) (D : Nat → Prop) (i : ItObj) (j : It) : Prop where
  idx : i.idx = j.idx
  desc : i.desc sc = .ok j.d
  home : D i.owner

theorem SeesIt.next {i : ItObj} {j : It} (h : SeesIt sc D i j) : SeesIt sc D (i.advance 1) j.increment :=
  ⟨by rw [ItObj.advance, It.increment, h.idx], h.desc, h.home⟩

theorem pads_begin {r : HRef} {d : Desc} (hx : D r.home) (h : r.desc sc = .ok d) {f : ItObj → Prog (Word T) α} {g : It → Prog (Word T) α}
    (hf : ∀ i j, d.begin = .ok j → SeesIt sc D i j → Pads (Members sc D) (f i) (g j)) : Pads (Members sc D) (r.beginP >>= f) (Prog.lift d.begin >>= g) := by
  obtain ⟨o, ho, h1, h2, h3, h4⟩ := desc_cases h
  have hx' := pads_origin (T := T) hx h
  unfold HRef.beginP
  rw [bind_assoc]
  refine (pads_bases hx ho).pre ?_
  rw [← h3, bind_assoc]
  cases hb : Res.get d.bases 0 with
  | ok b =>
    have hbeg : d.begin = .ok ⟨b, d⟩ := by rw [Desc.begin, hb]; rfl
    rw [hbeg]
    rw [Prog.lift_ok, pure_bind, bind_assoc]
    exact hx'.pre (hf _ _ hbeg ⟨rfl, h4, hx⟩)
  | assertFail => rw [Desc.begin, hb]; exact .assertFail
  | ub => rw [Desc.begin, hb]; exact .ub

theorem pads_end {r : HRef} {d : Desc} (hx : D r.home) (h : r.desc sc = .ok d) {f : ItObj → Prog (Word T) α} {g : It → Prog (Word T) α}
    (hf : ∀ i j, d.end = .ok j → SeesIt sc D i j → Pads (Members sc D) (f i) (g j)) : Pads (Members sc D) (r.endP >>= f) (Prog.lift d.end >>= g) := by
  obtain ⟨o, ho, h1, h2, h3, h4⟩ := desc_cases h
  have hx' := pads_origin (T := T) hx h
  unfold HRef.endP
  rw [bind_assoc]
  refine (pads_bases hx ho).pre ?_
  rw [← h3, bind_assoc]
  cases hb : Res.get d.bases 0 with
  | ok b =>
    rw [Prog.lift_ok, pure_bind, bind_assoc]
    refine (pads_sizes hx ho).pre ?_
    rw [← h1, bind_assoc]
    cases he : Res.get d.extents 0 with
    | ok e =>
      have hend : d.end = .ok ⟨b + (e : Int), d⟩ := by rw [Desc.end, hb, Res.bind_ok, he]; rfl
      rw [hend]
      rw [Prog.lift_ok, pure_bind, bind_assoc]
      exact hx'.pre (hf _ _ hend ⟨rfl, h4, hx⟩)
    | assertFail => rw [Desc.end, hb, Res.bind_ok, he]; exact .assertFail
    | ub => rw [Desc.end, hb, Res.bind_ok, he]; exact .ub
  | assertFail => rw [Desc.end, hb]; exact .assertFail
  | ub => rw [Desc.end, hb]; exact .ub

theorem access_desc {x : SubObj} {d d' : Desc} {i : Int} (hd : x.desc sc = .ok d) (ha : access dbg i d = .ok d') : SubObj.desc sc ⟨d'.base, x.owner, x.depth + 1⟩ = .ok d' := by
  unfold SubObj.desc at hd ⊢
  cases ho : sc x.owner with
  | none => rw [ho] at hd; cases hd
  | some o =>
    rw [ho] at hd
    simp only [Res.ok.injEq] at hd ⊢
    unfold access at ha
    rw [← hd] at ha
    simp only [← List.drop_drop] at *
    generalize o.desc.extents.drop x.depth = es at *
    generalize o.desc.strides.drop x.depth = ss at *
    generalize o.desc.bases.drop x.depth = bs at *
    match es, ss, bs, ha with
    | e :: es, s :: ss, b :: bs, ha =>
      simp only at ha
      cases h1 : Res.assert dbg (decide (i - b ≥ 0)) with
      | assertFail => rw [h1] at ha; cases ha
      | ub => rw [h1] at ha; cases ha
      | ok _ =>
        rw [h1] at ha
        cases h2 : Res.assert dbg (decide ((i - b).toNat < e)) with
        | assertFail => rw [h2] at ha; cases ha
        | ub => rw [h2] at ha; cases ha
        | ok _ =>
          rw [h2] at ha
          simp only [Res.bind_ok, Res.ok.injEq] at ha
          subst ha
          simp

theorem pads_deref {i : ItObj} {j : It} (h : SeesIt sc D i j) {f : HRef → Prog (Word T) α} {g : Desc → Prog (Word T) α}
    (hf : ∀ r d, j.deref dbg = .ok d → r.desc sc = .ok d → D r.home → Pads (Members sc D) (f r) (g d)) : Pads (Members sc D) (i.derefP dbg >>= f) (Prog.lift (j.deref dbg) >>= g) := by
  have hd : SubObj.desc sc ⟨i.base, i.owner, i.depth⟩ = .ok j.d := h.desc
  have hd' := hd
  unfold SubObj.desc at hd'
  cases ho : sc i.owner with
  | none => simp only [ho] at hd'; cases hd'
  | some o =>
    simp only [ho, Res.ok.injEq] at hd'
    unfold ItObj.derefP subDescP
    simp only [bind_assoc]
    refine (pads_sizes h.home ho).pre ((pads_strides h.home ho).pre ((pads_bases h.home ho).pre ?_))
    show Pads _ (Prog.lift (access dbg i.idx ⟨i.base, o.desc.extents.drop i.depth, o.desc.strides.drop i.depth, o.desc.bases.drop i.depth⟩) >>= _) _
    rw [hd', h.idx]
    refine Pads.lift (access dbg j.idx j.d) (fun d ha => hf _ d ha ?_ h.home)
    exact access_desc hd ha

theorem pads_stdCopy {body : ItObj → ItObj → Prog (Word T) Unit} {body' : It → It → Prog (Word T) Unit}
    (h : ∀ i j i' j', SeesIt sc D i i' → SeesIt sc D j j' → Pads (Members sc D) (body i j) (body' i' j')) :
    ∀ n {i j i' j'}, SeesIt sc D i i' → SeesIt sc D j j' → Pads (Members sc D) (stdCopyH body n i j) (stdCopyP body' n i' j')
  | 0, _, _, _, _, _, _ => .ret _
  | n + 1, _, _, _, _, hi, hj => (h _ _ _ _ hi hj).bind (fun _ => pads_stdCopy h n hi.next hj.next)

theorem sees_sub {i j : ItObj} {i' j' : It} (hi : SeesIt sc D i i') (hj : SeesIt sc D j j') : j.idx - i.idx = j'.sub i' := by
  rw [hi.idx, hj.idx]; rfl

theorem pads_assign (n : Nat) {dst src : HRef} {d s : Desc} (hd : dst.desc sc = .ok d) (hs : src.desc sc = .ok s) (hxd : D dst.home) (hxs : D src.home) :
    Pads (Members (T := T) sc D) (assignH dbg n dst src) (assignP dbg n d s) := by
  induction n generalizing dst src d s with
  | zero =>
    unfold assignH assignP
    exact (pads_origin hxs hs).pre ((Pads.refl _).bind (fun v => (pads_origin hxd hd).pre (Pads.refl _)))
  | succ n ih =>
    unfold assignH assignP
    refine (pads_shape hxs hs).pre ((pads_shape hxd hd).pre (Pads.lift _ fun _ _ => Pads.lift _ fun _ _ => ?_))
    refine pads_begin hxs hs (fun i i' _ hi => pads_end hxs hs (fun l l' _ hl => pads_begin hxd hd (fun o o' _ ho => ?_)))
    rw [sees_sub hi hl]
    exact pads_stdCopy (fun i j i' j' hi hj => pads_deref hi (fun r x _ h1 h2 => pads_deref hj (fun r' x' _ h3 h4 => ih h3 h1 h4 h2))) _ hi ho

theorem pads_copyDispatch (n : Nat) {dst src : HRef} {d s : Desc} (hd : dst.desc sc = .ok d) (hs : src.desc sc = .ok s) (hxd : D dst.home) (hxs : D src.home) :
    Pads (Members (T := T) sc D) (copyDispatchH dbg n src dst) (copyDispatchP dbg n s d) := by
  induction n generalizing dst src d s with
  | zero =>
    unfold copyDispatchH copyDispatchP
    exact (pads_origin hxs hs).pre ((Pads.refl _).bind (fun v => (pads_origin hxd hd).pre (Pads.refl _)))
  | succ n ih =>
    unfold copyDispatchH copyDispatchP
    refine pads_begin hxs hs (fun i i' _ hi => pads_end hxs hs (fun l l' _ hl => pads_begin hxd hd (fun o o' _ ho => ?_)))
    rw [sees_sub hi hl]
    exact pads_stdCopy (fun i j i' j' hi hj => pads_deref hi (fun r x _ h1 h2 => pads_deref hj (fun r' x' _ h3 h4 => ih h3 h1 h4 h2))) _ hi ho

theorem pads_copyArray {n : Nat} {dst src : HRef} {d s : Desc} (hd : dst.desc sc = .ok d) (hs : src.desc sc = .ok s) (hn : s.extents.length = n) (hxd : D dst.home) (hxs : D src.home) :
    Pads (Members (T := T) sc D) (copyArrayH dbg n src dst) (copyArrayP dbg s d) := by
  unfold copyArrayH copyArrayP
  subst hn
  exact (pads_shape hxs hs).pre ((pads_shape hxd hd).pre (Pads.lift _ fun _ _ => pads_copyDispatch _ hd hs hxd hxs))

theorem pads_stdForEach {body : ItObj → Prog (Word T) Unit} {body' : It → Unit → Prog (Word T) Unit}
    (h : ∀ i i', SeesIt sc D i i' → Pads (Members sc D) (body i) (body' i' ())) :
    ∀ n {i i'}, SeesIt sc D i i' → Pads (Members sc D) (stdForEachH body n i) (stdForEachP body' n i' ())
  | 0, _, _, _ => .ret _
  | n + 1, _, _, hi => (h _ _ hi).bind (fun _ => pads_stdForEach h n hi.next)

theorem pads_forEach (f : T → T) (n : Nat) {o : HRef} {d : Desc} (hd : o.desc sc = .ok d) (hx : D o.home) :
    Pads (Members (T := T) sc D) (forEachH dbg f n o) (forEachAccP dbg (fun (_ : Unit) w => (Word.map f w, ())) n d ()) := by
  induction n generalizing o d with
  | zero =>
    unfold forEachH forEachAccP
    exact (pads_origin hx hd).pre ((Pads.refl _).bind (fun v => Pads.refl _))
  | succ n ih =>
    unfold forEachH forEachAccP
    refine pads_begin hx hd (fun i i' _ hi => pads_end hx hd (fun l l' _ hl => ?_))
    rw [sees_sub hi hl]
    exact pads_stdForEach (fun i i' hi => pads_deref hi (fun r x _ h1 h2 => ih h1 h2)) _ hi

theorem pads_stdEqual {eqv : ItObj → ItObj → Prog (Word T) Bool} {eqv' : It → It → Prog (Word T) Bool}
    (h : ∀ i j i' j', SeesIt sc D i i' → SeesIt sc D j j' → Pads (Members sc D) (eqv i j) (eqv' i' j')) :
    ∀ n {i j i' j'}, SeesIt sc D i i' → SeesIt sc D j j' → Pads (Members sc D) (stdEqualH eqv n i j) (stdEqualP eqv' n i' j')
  | 0, _, _, _, _, _, _ => .ret _
  | n + 1, _, _, _, _, hi, hj => (h _ _ _ _ hi hj).bind (fun b => by
      cases b
      · exact .ret _
      · exact pads_stdEqual h n hi.next hj.next)

theorem pads_equal (eq : T → T → Bool) (n : Nat) {a b : HRef} {d e : Desc} (hd : a.desc sc = .ok d) (he : b.desc sc = .ok e) (hxa : D a.home) (hxb : D b.home) :
    Pads (Members (T := T) sc D) (equalH dbg eq n a b) (equalP dbg (Word.cmp eq) n d e) := by
  induction n generalizing a b d e with
  | zero =>
    unfold equalH equalP
    exact (pads_origin hxa hd).pre ((Pads.refl _).bind (fun v => (pads_origin hxb he).pre (Pads.refl _)))
  | succ n ih =>
    unfold equalH equalP
    refine (pads_shape hxa hd).pre ((pads_shape hxb he).pre ?_)
    split
    · refine pads_begin hxa hd (fun i i' _ hi => pads_end hxa hd (fun l l' _ hl => pads_begin hxb he (fun o o' _ ho => ?_)))
      rw [sees_sub hi hl]
      exact pads_stdEqual (fun i j i' j' hi hj => pads_deref hi (fun r x _ h1 h2 => pads_deref hj (fun r' x' _ h3 h4 => ih h1 h3 h2 h4))) _ hi ho
    · exact .ret _

theorem pads_stdLex {lt : ItObj → ItObj → Prog (Word T) Bool} {lt' : It → It → Prog (Word T) Bool}
    (h : ∀ i j i' j', SeesIt sc D i i' → SeesIt sc D j j' → Pads (Members sc D) (lt i j) (lt' i' j')) :
    ∀ n m {i j i' j'}, SeesIt sc D i i' → SeesIt sc D j j' → Pads (Members sc D) (stdLexCompareH lt n m i j) (stdLexCompareP lt' n m i' j')
  | 0, 0, _, _, _, _, _, _ => .ret _
  | _ + 1, 0, _, _, _, _, _, _ => .ret _
  | 0, _ + 1, _, _, _, _, _, _ => .ret _
  | n + 1, m + 1, _, _, _, _, hi, hj => (h _ _ _ _ hi hj).bind (fun b => by
      cases b
      · exact (h _ _ _ _ hj hi).bind (fun c => by
          cases c
          · exact pads_stdLex h n m hi.next hj.next
          · exact .ret _)
      · exact .ret _)

theorem pads_less (lt : T → T → Bool) (n : Nat) {a b : HRef} {d e : Desc} (hd : a.desc sc = .ok d) (he : b.desc sc = .ok e) (hxa : D a.home) (hxb : D b.home) :
    Pads (Members (T := T) sc D) (lessH dbg lt n a b) (lessP dbg (Word.cmp lt) n d e) := by
  induction n generalizing a b d e with
  | zero =>
    unfold lessH lessP
    exact (pads_origin hxa hd).pre ((Pads.refl _).bind (fun v => (pads_origin hxb he).pre (Pads.refl _)))
  | succ n ih =>
    unfold lessH lessP
    refine pads_begin hxa hd (fun i i' _ hi => pads_end hxa hd (fun l l' _ hl => pads_begin hxb he (fun o o' _ ho => pads_end hxb he (fun o2 o2' _ ho2 => ?_))))
    rw [sees_sub hi hl, sees_sub ho ho2]
    exact pads_stdLex (fun i j i' j' hi hj => pads_deref hi (fun r x _ h1 h2 => pads_deref hj (fun r' x' _ h3 h4 => ih h1 h3 h2 h4))) _ _ hi ho

end
end MultiArray
