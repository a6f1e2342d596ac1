import Verif.Lemmas.ClientCode

/- Code that never changes a given set of blocks, whatever the memory it meets: which storage each function of the library changes. -/
set_option autoImplicit false

namespace MultiArray
open Spec
variable {T α β : Type}

/-! ### Addresses stay in their block -/

theorem res_bind_ok {x : Res α} {f : α → Res β} {b : β} (h : (x >>= f) = .ok b) : ∃ a, x = .ok a ∧ f a = .ok b := by
  cases x with
  | ok a => exact ⟨a, rfl, h⟩
  | assertFail => cases h
  | ub => cases h

theorem access_blk {dbg : Bool} {i : Int} {d d' : Desc} (h : access dbg i d = .ok d') : d'.base.blk = d.base.blk := by
  unfold access at h
  split at h
  · obtain ⟨_, _, h⟩ := res_bind_ok h
    obtain ⟨_, _, h⟩ := res_bind_ok h
    cases h; rfl
  · cases h

theorem accessChain_blk {dbg : Bool} {is : List Int} {d d' : Desc} (h : accessChain dbg is d = .ok d') : d'.base.blk = d.base.blk := by
  induction is generalizing d with
  | nil => cases h; rfl
  | cons i is ih =>
    obtain ⟨d1, h1, h2⟩ := res_bind_ok (h : (access dbg i d >>= accessChain dbg is) = .ok d')
    rw [ih h2, access_blk h1]

theorem accessElement_blk {dbg : Bool} {is : List Int} {d : Desc} {p : Ptr} (h : accessElement dbg is d = .ok p) : p.blk = d.base.blk := by
  unfold accessElement at h
  obtain ⟨_, _, h⟩ := res_bind_ok h
  obtain ⟨_, _, h⟩ := res_bind_ok h
  cases h; rfl

theorem generateArrayView_blk {dbg : Bool} {g : IndexGen} {d : Desc} {v : View} (h : generateArrayView dbg g d = .ok v) : v.base.blk = d.base.blk := by
  unfold generateArrayView at h
  obtain ⟨_, _, h⟩ := res_bind_ok h
  obtain ⟨_, _, h⟩ := res_bind_ok h
  split at h
  · cases h; rfl
  · cases h

theorem resolve_blk {dbg : Bool} {ss : List Sel} {d d' : Desc} (h : resolve dbg ss d = .ok d') : d'.base.blk = d.base.blk := by
  induction ss generalizing d with
  | nil => cases h; rfl
  | cons s ss ih =>
    cases s with
    | «at» i =>
      obtain ⟨d1, h1, h2⟩ := res_bind_ok (h : (d.bracket dbg i >>= resolve dbg ss) = .ok d')
      rw [ih h2]; exact access_blk h1
    | view xs =>
      unfold resolve at h
      obtain ⟨_, _, h⟩ := res_bind_ok h
      obtain ⟨v, h1, h⟩ := res_bind_ok h
      rw [ih h]; exact generateArrayView_blk h1
    | viewFrom xs bs =>
      unfold resolve at h
      obtain ⟨_, _, h⟩ := res_bind_ok h
      obtain ⟨v, h1, h⟩ := res_bind_ok h
      obtain ⟨v', h2, h⟩ := res_bind_ok h
      rw [ih h]
      unfold View.reindexList at h2
      obtain ⟨_, _, h2⟩ := res_bind_ok h2
      cases h2
      have h3 : v.base.blk = d.base.blk := generateArrayView_blk h1
      exact h3

theorem begin_blk {d : Desc} {i : It} (h : d.begin = .ok i) : i.d = d := by
  unfold Desc.begin at h
  obtain ⟨_, _, h⟩ := res_bind_ok h
  cases h; rfl

/-! ### Programs of element accesses -/

/-- Whatever it reads, the program assigns no element of a block in `B`. -/
def Prog.Avoids (B : Nat → Prop) : Prog T α → Prop
  | .ret _ => True
  | .load _ k => ∀ v, (k v).Avoids B
  | .store p _ k => ¬ B p.blk ∧ k.Avoids B
  | .assertFail => True
  | .ub => True

theorem Prog.Avoids.bind {B : Nat → Prop} {x : Prog T α} {f : α → Prog T β} (hx : x.Avoids B) (hf : ∀ a, (f a).Avoids B) : (x >>= f).Avoids B := by
  show (Prog.bind x f).Avoids B
  induction x with
  | ret a => exact hf a
  | load p k ih => exact fun v => ih v (hx v)
  | store p v k ih => exact ⟨hx.1, ih hx.2⟩
  | assertFail => trivial
  | ub => trivial

theorem Prog.avoids_lift {B : Nat → Prop} (r : Res α) : (Prog.lift r : Prog T α).Avoids B := by cases r <;> trivial

theorem Prog.Avoids.liftBind {B : Nat → Prop} {r : Res α} {f : α → Prog T β} (hf : ∀ a, r = .ok a → (f a).Avoids B) : (Prog.lift r >>= f).Avoids B := by
  cases r with
  | ok a => exact hf a rfl
  | assertFail => trivial
  | ub => trivial

theorem avoids_readElemP (B : Nat → Prop) (dbg : Bool) (d : Desc) (is : List Int) : (readElemP dbg d is : Prog T T).Avoids B :=
  .liftBind fun _ _ _ => trivial

theorem avoids_writeElemP {B : Nat → Prop} (dbg : Bool) {d : Desc} (hd : ¬ B d.base.blk) (is : List Int) (v : T) : (writeElemP dbg d is v).Avoids B :=
  .liftBind fun p hp => ⟨by rw [accessElement_blk hp]; exact hd, trivial⟩

theorem avoids_stdCopyP {B : Nat → Prop} (body : It → It → Prog T Unit) (b : Nat) (hb : ∀ i o : It, o.d.base.blk = b → (body i o).Avoids B) (n : Nat) (i o : It) (ho : o.d.base.blk = b) :
    (stdCopyP body n i o).Avoids B := by
  induction n generalizing i o with
  | zero => trivial
  | succ n ih => exact .bind (hb i o ho) fun _ => ih _ _ ho

theorem avoids_assignP {B : Nat → Prop} (dbg : Bool) (n : Nat) {dst : Desc} (hd : ¬ B dst.base.blk) (src : Desc) : (assignP dbg n dst src : Prog T Unit).Avoids B := by
  induction n generalizing dst src with
  | zero => exact fun v => ⟨hd, trivial⟩
  | succ n ih =>
    refine .bind (Prog.avoids_lift _) fun _ => .bind (Prog.avoids_lift _) fun _ => .bind (Prog.avoids_lift _) fun first => .bind (Prog.avoids_lift _) fun last => .liftBind fun out ho => ?_
    refine avoids_stdCopyP _ dst.base.blk (fun i o hob => ?_) _ _ _ (by rw [begin_blk ho])
    refine .bind (Prog.avoids_lift _) fun s => .liftBind fun d hdd => ih ?_ _
    rw [access_blk hdd, hob]; exact hd

theorem avoids_copyDispatchP {B : Nat → Prop} (dbg : Bool) (n : Nat) (src : Desc) {dst : Desc} (hd : ¬ B dst.base.blk) : (copyDispatchP dbg n src dst : Prog T Unit).Avoids B := by
  induction n generalizing dst src with
  | zero => exact fun v => ⟨hd, trivial⟩
  | succ n ih =>
    refine .bind (Prog.avoids_lift _) fun first => .bind (Prog.avoids_lift _) fun last => .liftBind fun out ho => ?_
    refine avoids_stdCopyP _ dst.base.blk (fun i o hob => ?_) _ _ _ (by rw [begin_blk ho])
    refine .bind (Prog.avoids_lift _) fun s => .liftBind fun d hdd => ih _ ?_
    rw [access_blk hdd, hob]; exact hd

theorem avoids_copyArrayP {B : Nat → Prop} (dbg : Bool) (src : Desc) {dst : Desc} (hd : ¬ B dst.base.blk) : (copyArrayP dbg src dst : Prog T Unit).Avoids B :=
  .bind (Prog.avoids_lift _) fun _ => avoids_copyDispatchP dbg _ src hd

theorem avoids_assignLoopP {B : Nat → Prop} (n : Nat) {p : Ptr} (hp : ¬ B p.blk) (input : List T) : (assignLoopP n p input).Avoids B := by
  induction n generalizing p input with
  | zero => trivial
  | succ n ih =>
    cases input with
    | nil => trivial
    | cons v vs => exact ⟨hp, ih (p := p.add 1) hp vs⟩

theorem avoids_forEachAccP {B : Nat → Prop} {σ : Type} (dbg : Bool) (f : σ → T → T × σ) (n : Nat) {d : Desc} (hd : ¬ B d.base.blk) (q : σ) :
    (forEachAccP dbg f n d q).Avoids B := by
  induction n generalizing d q with
  | zero => exact fun v => ⟨hd, trivial⟩
  | succ n ih =>
    refine .liftBind fun first hf => .bind (Prog.avoids_lift _) fun last => ?_
    have key : ∀ (m : Nat) (i : It) (q : σ), i.d.base.blk = d.base.blk →
        (stdForEachP (fun i q => do let s ← Prog.lift (i.deref dbg); forEachAccP dbg f n s q) m i q).Avoids B := by
      intro m
      induction m with
      | zero => intro i q _; trivial
      | succ m ihm =>
        intro i q hi
        refine .bind (.liftBind fun s hs => ih ?_ _) fun q' => ihm _ _ hi
        rw [access_blk hs, hi]; exact hd
    exact key _ _ _ (by rw [begin_blk hf])

theorem avoids_equalP (B : Nat → Prop) (dbg : Bool) (eq : T → T → Bool) (n : Nat) (a b : Desc) : (equalP dbg eq n a b).Avoids B := by
  induction n generalizing a b with
  | zero => exact fun _ _ => trivial
  | succ n ih =>
    unfold equalP
    split
    · refine .bind (Prog.avoids_lift _) fun first => .bind (Prog.avoids_lift _) fun last => .bind (Prog.avoids_lift _) fun first2 => ?_
      have key : ∀ (m : Nat) (i j : It),
          (stdEqualP (fun i j => do let x ← Prog.lift (i.deref dbg); let y ← Prog.lift (j.deref dbg); equalP dbg eq n x y) m i j).Avoids B := by
        intro m
        induction m with
        | zero => intro i j; trivial
        | succ m ihm =>
          intro i j
          refine .bind (.bind (Prog.avoids_lift _) fun _ => .bind (Prog.avoids_lift _) fun _ => ih _ _) fun b => ?_
          split
          · exact ihm _ _
          · trivial
      exact key _ _ _
    · trivial

theorem avoids_lessP (B : Nat → Prop) (dbg : Bool) (lt : T → T → Bool) (n : Nat) (a b : Desc) : (lessP dbg lt n a b).Avoids B := by
  induction n generalizing a b with
  | zero => exact fun _ _ => trivial
  | succ n ih =>
    refine .bind (Prog.avoids_lift _) fun first => .bind (Prog.avoids_lift _) fun last => .bind (Prog.avoids_lift _) fun first2 => .bind (Prog.avoids_lift _) fun last2 => ?_
    have hbody : ∀ i j : It, (do let x ← Prog.lift (i.deref dbg); let y ← Prog.lift (j.deref dbg); lessP dbg lt n x y : Prog T Bool).Avoids B :=
      fun i j => .bind (Prog.avoids_lift _) fun _ => .bind (Prog.avoids_lift _) fun _ => ih _ _
    have key : ∀ (m m' : Nat) (i j : It),
        (stdLexCompareP (fun i j => do let x ← Prog.lift (i.deref dbg); let y ← Prog.lift (j.deref dbg); lessP dbg lt n x y) m m' i j).Avoids B := by
      intro m
      induction m with
      | zero =>
        intro m' i j
        cases m' <;> trivial
      | succ m ihm =>
        intro m' i j
        cases m' with
        | zero => trivial
        | succ m' =>
          refine .bind (hbody i j) fun b => ?_
          split
          · trivial
          · refine .bind (hbody j i) fun b => ?_
            split
            · trivial
            · exact ihm _ _ _
    exact key _ _ _ _

/-! ### Code -/

/-- Whatever memory it meets, the code changes no block in `B`, provided the blocks it allocates are not in `B`; what it returns satisfies `Q`. -/
def Code.Avoids (B : Nat → Prop) (Q : α → Prop) : Code T α → Prop
  | .ret a => Q a
  | .throw => True
  | .assertFail => True
  | .ub => True
  | .load _ k => ∀ v, (k v).Avoids B Q
  | .store p _ k h => ¬ B p.blk ∧ k.Avoids B Q ∧ h.Avoids B Q
  | .construct _ p k h => ¬ B p.blk ∧ k.Avoids B Q ∧ h.Avoids B Q
  | .destroy p k => ¬ B p.blk ∧ k.Avoids B Q
  | .alloc _ _ k h => (∀ q : Ptr, ¬ B q.blk → (k q).Avoids B Q) ∧ h.Avoids B Q
  | .dealloc _ p _ k => ¬ B p.blk ∧ k.Avoids B Q

namespace Code

theorem Avoids.elim {B : Nat → Prop} {Q : α → Prop} {R : β → Prop} {x : Code T α} {f : α → Code T β} {h : Code T β} (hx : x.Avoids B Q)
    (hf : ∀ a, Q a → (f a).Avoids B R) (hh : h.Avoids B R) : (Code.elim x f h).Avoids B R := by
  induction x with
  | ret a => exact hf a hx
  | throw => exact hh
  | assertFail => trivial
  | ub => trivial
  | load p k ih => exact fun v => ih v (hx v)
  | store p v k h ih ih' => exact ⟨hx.1, ih hx.2.1, ih' hx.2.2⟩
  | construct v p k h ih ih' => exact ⟨hx.1, ih hx.2.1, ih' hx.2.2⟩
  | destroy p k ih => exact ⟨hx.1, ih hx.2⟩
  | alloc al n k h ih ih' => exact ⟨fun q hq => ih q (hx.1 q hq), ih' hx.2⟩
  | dealloc al p n k ih => exact ⟨hx.1, ih hx.2⟩

theorem Avoids.bind {B : Nat → Prop} {Q : α → Prop} {R : β → Prop} {x : Code T α} {f : α → Code T β} (hx : x.Avoids B Q)
    (hf : ∀ a, Q a → (f a).Avoids B R) : (x >>= f).Avoids B R := Avoids.elim hx hf trivial

theorem Avoids.attempt {B : Nat → Prop} {Q : α → Prop} {x : Code T α} (hx : x.Avoids B Q) : x.attempt.Avoids B (fun o => ∀ a, o = some a → Q a) :=
  Avoids.elim hx (fun a ha b hb => by cases hb; exact ha) (fun a ha => by cases ha)

theorem Avoids.onThrow {B : Nat → Prop} {Q : α → Prop} {R : Unit → Prop} {x : Code T α} {c : Code T Unit} (hx : x.Avoids B Q) (hc : c.Avoids B R) : (x.onThrow c).Avoids B Q :=
  Avoids.elim hx (fun a ha => ha) (Avoids.elim hc (fun _ _ => trivial) trivial)

theorem avoids_lift {B : Nat → Prop} {Q : α → Prop} {r : Res α} (h : ∀ a, r = .ok a → Q a) : (Code.lift r : Code T α).Avoids B Q := by
  cases r with
  | ok a => exact h a rfl
  | assertFail => trivial
  | ub => trivial

theorem avoids_ofProg {B : Nat → Prop} {x : Prog T α} (h : x.Avoids B) : (ofProg x).Avoids B (fun _ => True) := by
  induction x with
  | ret a => trivial
  | load p k ih => exact fun v => ih v (h v)
  | store p v k ih => exact ⟨h.1, ih h.2, trivial⟩
  | assertFail => trivial
  | ub => trivial

end Code

/-- The array's storage is not in `B`. -/
def MArr.FreeOf (B : Nat → Prop) (a : MArr) : Prop := ¬ B a.ref.base.blk ∧ ¬ B a.ownBase.blk

theorem avoids_destroyNC {B : Nat → Prop} {p : Ptr} (hp : ¬ B p.blk) (n : Nat) : (destroyNC p n : Code T Unit).Avoids B (fun _ => True) := by
  induction n with
  | zero => trivial
  | succ n ih => exact ⟨hp, ih⟩

theorem avoids_constructFromC {B : Nat → Prop} (dflt : T) {p : Ptr} (hp : ¬ B p.blk) (n i : Nat) : (constructFromC dflt p n i).Avoids B (fun _ => True) := by
  induction n generalizing i with
  | zero => trivial
  | succ n ih =>
    refine Code.Avoids.bind (Q := fun _ => True) (Code.Avoids.onThrow (R := fun _ => True) ⟨hp, trivial, trivial⟩ (avoids_destroyNC hp i)) fun _ _ => ih _

theorem avoids_allocateSpaceC {B : Nat → Prop} (dflt : T) (ref : ARef) (al : Nat) : (MArr.allocateSpaceC dflt ref al).Avoids B (MArr.FreeOf B) := by
  refine Code.Avoids.bind (Q := fun (p : Ptr) => ¬ B p.blk) ⟨fun q hq => hq, trivial⟩ fun p hp => ?_
  exact Code.Avoids.bind (avoids_constructFromC dflt hp _ _) fun _ _ => ⟨hp, hp⟩

theorem avoids_deallocateSpaceC {B : Nat → Prop} {a : MArr} (ha : a.FreeOf B) : (MArr.deallocateSpaceC a : Code T Unit).Avoids B (fun _ => True) := by
  unfold MArr.deallocateSpaceC
  split
  · exact Code.Avoids.bind (avoids_destroyNC ha.2 _) fun _ _ => ⟨ha.2, trivial⟩
  · trivial

theorem avoids_mkDefaultC {B : Nat → Prop} (dflt : T) (n al : Nat) : (MArr.mkDefaultC dflt n al).Avoids B (MArr.FreeOf B) :=
  Code.Avoids.bind (Code.avoids_lift (Q := fun _ => True) fun _ _ => trivial) fun _ _ => avoids_allocateSpaceC dflt _ al

theorem avoids_mkExtentsC {B : Nat → Prop} (dflt : T) (n : Nat) (es : List Nat) (so : StorageOrder) (al : Nat) : (MArr.mkExtentsC dflt n es so al).Avoids B (MArr.FreeOf B) :=
  Code.Avoids.bind (Code.avoids_lift (Q := fun _ => True) fun _ _ => trivial) fun _ _ => avoids_allocateSpaceC dflt _ al

theorem avoids_mkExtentGenC {B : Nat → Prop} (dflt : T) (g : ExtentGen) (so : StorageOrder) (al : Nat) : (MArr.mkExtentGenC dflt g so al).Avoids B (MArr.FreeOf B) :=
  Code.Avoids.bind (Code.avoids_lift (Q := fun _ => True) fun _ _ => trivial) fun _ _ => avoids_allocateSpaceC dflt _ al

theorem avoids_copyNElemsC {B : Nat → Prop} (n : Nat) (src : Ptr) {dst : Ptr} (hd : ¬ B dst.blk) : (MArr.copyNElemsC n src dst : Code T Unit).Avoids B (fun _ => True) := by
  induction n generalizing src dst with
  | zero => trivial
  | succ n ih => exact fun v => ⟨hd, ih (src.add 1) (dst := dst.add 1) hd, trivial⟩

theorem avoids_mkCopyC {B : Nat → Prop} (dflt : T) (rhs : MArr) : (MArr.mkCopyC dflt rhs).Avoids B (MArr.FreeOf B) :=
  Code.Avoids.bind (avoids_allocateSpaceC dflt _ _) fun a ha => Code.Avoids.bind (avoids_copyNElemsC _ _ ha.2) fun _ _ => ha

theorem avoids_mkConvertC {B : Nat → Prop} (dbg : Bool) (dflt : T) (rhs : Desc) (so : StorageOrder) (al : Nat) : (MArr.mkConvertC dbg dflt rhs so al).Avoids B (MArr.FreeOf B) := by
  refine Code.Avoids.bind (Code.avoids_lift (Q := fun _ => True) fun _ _ => trivial) fun _ _ => Code.Avoids.bind (avoids_allocateSpaceC dflt _ al) fun a ha => ?_
  refine Code.Avoids.bind (Code.avoids_lift (Q := fun _ => True) fun _ _ => trivial) fun first _ => Code.Avoids.bind (Code.avoids_lift (Q := fun _ => True) fun _ _ => trivial) fun last _ => ?_
  refine Code.Avoids.bind (Code.avoids_lift (Q := fun o => o.d.base.blk = a.ref.base.blk) fun o ho => by rw [begin_blk ho]; rfl) fun out ho => ?_
  refine Code.Avoids.bind (Code.avoids_ofProg (avoids_stdCopyP _ a.ref.base.blk (fun i o hob => ?_) _ _ _ ho)) fun _ _ => ha
  refine .bind (Prog.avoids_lift _) fun s => .liftBind fun d hdd => avoids_assignP dbg _ ?_ _
  rw [access_blk hdd, hob]; exact ha.1

theorem avoids_resizeFillC {B : Nat → Prop} (dbg : Bool) (a : MArr) {n : MArr} (hn : n.FreeOf B) : (MArr.resizeFillC dbg a n : Code T Unit).Avoids B (fun _ => True) := by
  refine Code.Avoids.bind (Code.avoids_lift (Q := fun _ => True) fun _ _ => trivial) fun _ _ => ?_
  refine Code.Avoids.bind (Code.avoids_lift (Q := fun v => v.base.blk = n.ref.base.blk) fun v hv => generateArrayView_blk hv) fun v hv => ?_
  exact Code.avoids_ofProg (avoids_assignP dbg _ (dst := v.desc) (by show ¬ B v.base.blk; rw [hv]; exact hn.1) _)

theorem avoids_resizeC {B : Nat → Prop} (dbg : Bool) (dflt : T) (g : ExtentGen) {a : MArr} (ha : a.FreeOf B) :
    (MArr.resizeC dbg dflt g a).Avoids B (fun r => r.2.FreeOf B) := by
  refine Code.Avoids.bind (Code.Avoids.attempt (avoids_mkExtentGenC dflt g _ _)) fun o ho => ?_
  cases o with
  | none => exact ha
  | some n =>
    have hn := ho n rfl
    refine Code.Avoids.bind (Code.Avoids.attempt (Code.Avoids.onThrow (avoids_resizeFillC dbg a hn) (avoids_deallocateSpaceC hn))) fun o' _ => ?_
    cases o' with
    | none => exact ha
    | some _ => exact Code.Avoids.bind (Code.Avoids.attempt (avoids_deallocateSpaceC (a := (MArr.swapAll a n).2) ha)) fun _ _ => hn

theorem avoids_resizeExtentsC {B : Nat → Prop} (dbg : Bool) (dflt : T) (es : List Nat) {a : MArr} (ha : a.FreeOf B) :
    (MArr.resizeExtentsC dbg dflt es a).Avoids B (fun r => r.2.FreeOf B) :=
  Code.Avoids.bind (Code.avoids_lift (Q := fun _ => True) fun _ _ => trivial) fun _ _ => avoids_resizeC dbg dflt _ ha

theorem avoids_readChainC (B : Nat → Prop) (dbg : Bool) (d : Desc) (is : List Int) : (readChainC dbg d is : Code T T).Avoids B (fun _ => True) :=
  Code.Avoids.bind (Code.avoids_lift (Q := fun _ => True) fun _ _ => trivial) fun _ _ _ => trivial

theorem avoids_writeChainC {B : Nat → Prop} (dbg : Bool) {d : Desc} (hd : ¬ B d.base.blk) (is : List Int) (v : T) : (writeChainC dbg d is v).Avoids B (fun _ => True) :=
  Code.Avoids.bind (Code.avoids_lift (Q := fun d' => d'.base.blk = d.base.blk) fun _ h => accessChain_blk h) fun _ hd' => ⟨by rw [hd']; exact hd, trivial, trivial⟩

/-! ### Running such code -/

theorem cell_next : (∀ (p : Ptr) (v : T) (s : St T), (∀ s', assignCell p v s = .ok () s' → s'.next = s.next) ∧ (∀ s', assignCell p v s = .throw s' → s'.next = s.next)) ∧
    (∀ (p : Ptr) (v : T) (s : St T), (∀ s', constructCell v p s = .ok () s' → s'.next = s.next) ∧ (∀ s', constructCell v p s = .throw s' → s'.next = s.next)) := by
  have hset : ∀ (s : St T) (p : Ptr) (c : Cell T), (s.setCell p c).next = s.next := by
    intro s p c; unfold St.setCell; split <;> rfl
  have hassign : ∀ (p : Ptr) (v : T) (s : St T), (∀ s', assignCell p v s = .ok () s' → s'.next = s.next) ∧ (∀ s', assignCell p v s = .throw s' → s'.next = s.next) := by
    intro p v s
    unfold assignCell
    cases s.get? p with
    | none => exact ⟨fun _ h => (nomatch h), fun _ h => (nomatch h)⟩
    | some w =>
      dsimp only
      split
      · exact ⟨fun _ h => by cases h; exact hset _ _ _, fun _ h => (nomatch h)⟩
      · exact ⟨fun _ h => by cases h; exact hset _ _ _, fun _ h => (nomatch h)⟩
      · exact ⟨fun _ h => (nomatch h), fun _ h => by cases h; exact hset _ _ _⟩
  have hcons : ∀ (p : Ptr) (v : T) (s : St T), (∀ s', constructCell v p s = .ok () s' → s'.next = s.next) ∧ (∀ s', constructCell v p s = .throw s' → s'.next = s.next) := by
    intro p v s
    unfold constructCell
    cases s.cell? p with
    | none => exact ⟨fun _ h => (nomatch h), fun _ h => (nomatch h)⟩
    | some w =>
      cases w with
      | obj w => exact ⟨fun _ h => (nomatch h), fun _ h => (nomatch h)⟩
      | raw =>
        dsimp only
        split
        · exact ⟨fun _ h => by cases h; exact hset _ _ _, fun _ h => (nomatch h)⟩
        · exact ⟨fun _ h => by cases h; exact hset _ _ _, fun _ h => (nomatch h)⟩
        · exact ⟨fun _ h => (nomatch h), fun _ h => by cases h; rfl⟩
  exact ⟨hassign, hcons⟩

theorem avoids_spares {B : Nat → Prop} {Q : α → Prop} {x : Code T α} (h : x.Avoids B Q) {s : St T} (hB : ∀ b, B b → b < s.next) : x.Spares B s := by
  obtain ⟨hassign, hcons⟩ := cell_next (T := T)
  have hset : ∀ (s : St T) (p : Ptr) (c : Cell T), (s.setCell p c).next = s.next := by
    intro s p c; unfold St.setCell; split <;> rfl
  induction x generalizing s with
  | ret a => trivial
  | throw => trivial
  | assertFail => trivial
  | ub => trivial
  | load p k ih =>
    simp only [Code.Spares]
    cases e : MultiArray.load p s with
    | ok v s' =>
      have : s' = s := by
        unfold MultiArray.load at e
        split at e <;> cases e
        rfl
      subst this
      exact ih v (h v) hB
    | throw s' => trivial
    | assertFail s' => trivial
    | ub => trivial
  | store p v k h' ih ih' =>
    simp only [Code.Spares]
    refine ⟨h.1, ?_⟩
    cases e : assignCell p v s with
    | ok a s' => exact ih h.2.1 (fun b hb => by rw [(hassign p v s).1 s' e]; exact hB b hb)
    | throw s' => exact ih' h.2.2 (fun b hb => by rw [(hassign p v s).2 s' e]; exact hB b hb)
    | assertFail s' => trivial
    | ub => trivial
  | construct v p k h' ih ih' =>
    simp only [Code.Spares]
    refine ⟨h.1, ?_⟩
    cases e : constructCell v p s with
    | ok a s' => exact ih h.2.1 (fun b hb => by rw [(hcons p v s).1 s' e]; exact hB b hb)
    | throw s' => exact ih' h.2.2 (fun b hb => by rw [(hcons p v s).2 s' e]; exact hB b hb)
    | assertFail s' => trivial
    | ub => trivial
  | destroy p k ih =>
    simp only [Code.Spares]
    refine ⟨h.1, ?_⟩
    cases e : destroyCell p s with
    | ok a s' =>
      refine ih h.2 (fun b hb => ?_)
      unfold destroyCell at e
      split at e <;> cases e
      rw [hset]; exact hB b hb
    | throw s' => trivial
    | assertFail s' => trivial
    | ub => trivial
  | alloc al n k h' ih ih' =>
    simp only [Code.Spares]
    cases e : allocate al n s with
    | ok p s' =>
      unfold allocate at e
      split at e
      · cases e
      · cases e
        exact ih _ (h.1 _ (fun hb => absurd (hB _ hb) (Nat.lt_irrefl _))) (fun b hb => Nat.lt_succ_of_lt (hB b hb))
    | throw s' =>
      unfold allocate at e
      split at e
      · cases e
        exact ih' h.2 hB
      · cases e
    | assertFail s' => trivial
    | ub => trivial
  | dealloc al p n k ih =>
    simp only [Code.Spares]
    refine ⟨h.1, ?_⟩
    cases e : deallocate al p n s with
    | ok a s' =>
      refine ih h.2 (fun b hb => ?_)
      unfold deallocate at e
      split at e
      · cases e
      · split at e <;> cases e
        exact hB b hb
    | throw s' => trivial
    | assertFail s' => trivial
    | ub => trivial

end MultiArray
