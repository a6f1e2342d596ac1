import Verif.Lemmas.HandleMem
import Verif.Lemmas.Compare
import Verif.SpecConc

/- Programs of element accesses: agreement with the sequential model, and footprints. -/
set_option autoImplicit false

namespace MultiArray
open Spec
variable {T α β : Type}

namespace Prog

theorem bind_eq (x : Prog T α) (f : α → Prog T β) : (x >>= f) = x.bind f := rfl
theorem pure_eq (a : α) : (pure a : Prog T α) = .ret a := rfl

instance : LawfulMonad (Prog T) := LawfulMonad.mk'
  (id_map := by
    intro α x
    show Prog.bind x _ = x
    induction x with
    | ret a => rfl
    | load p k ih => simp only [Prog.bind, ih]
    | store p v k ih => simp only [Prog.bind, ih]
    | assertFail => rfl
    | ub => rfl)
  (pure_bind := by intros; rfl)
  (bind_assoc := by
    intro α β γ x f g
    show Prog.bind (Prog.bind x f) g = Prog.bind x _
    induction x with
    | ret a => rfl
    | load p k ih => simp only [Prog.bind, ih]
    | store p v k ih => simp only [Prog.bind, ih]
    | assertFail => rfl
    | ub => rfl)

@[simp] theorem lift_ok (a : α) : (lift (.ok a) : Prog T α) = pure a := rfl

theorem exec_bind (x : Prog T α) (f : α → Prog T β) : (x >>= f).exec = (do let a ← x.exec; (f a).exec) := by
  show (Prog.bind x f).exec = _
  induction x with
  | ret a => simp [Prog.bind, exec]
  | load p k ih => simp only [Prog.bind, exec, ih, bind_assoc]
  | store p v k ih => simp only [Prog.bind, exec, ih, bind_assoc]
  | assertFail => rfl
  | ub => rfl

theorem exec_pure (a : α) : (pure a : Prog T α).exec = pure a := rfl

theorem exec_lift (r : Res α) : (lift r : Prog T α).exec = Exec.lift r := by cases r <;> rfl

theorem exec_get (p : Ptr) : (get p : Prog T T).exec = MultiArray.load p := by
  show (MultiArray.load p >>= fun v => pure v) = _
  simp

theorem exec_put (p : Ptr) (v : T) : (put p v).exec = assignCell p v := by
  show (do assignCell p v; pure ()) = _
  simp

end Prog

/-! ### The programs run like the sequential model -/

theorem exec_readElemP (dbg : Bool) (d : Desc) (idx : List Int) : (readElemP dbg d idx : Prog T T).exec = readElem dbg d idx := by
  simp only [readElemP, readElem, Prog.exec_bind, Prog.exec_lift, Prog.exec_get]

theorem exec_writeElemP (dbg : Bool) (d : Desc) (idx : List Int) (v : T) : (writeElemP dbg d idx v).exec = writeElem dbg d idx v := by
  simp only [writeElemP, writeElem, Prog.exec_bind, Prog.exec_lift, Prog.exec_put]

theorem exec_stdCopyP (body : It → It → Prog T Unit) (n : Nat) (i o : It) :
    (stdCopyP body n i o).exec = stdCopy (fun i o => (body i o).exec) n i o := by
  induction n generalizing i o with
  | zero => rfl
  | succ n ih => simp only [stdCopyP, stdCopy, Prog.exec_bind, ih]

theorem exec_assignP (dbg : Bool) (n : Nat) (dst src : Desc) : (assignP dbg n dst src : Prog T Unit).exec = assignRef dbg n dst src := by
  induction n generalizing dst src with
  | zero => simp only [assignP, assignRef_zero, Prog.exec_bind, Prog.exec_get, Prog.exec_put]
  | succ n ih => simp only [assignP, assignRef_succ, Prog.exec_bind, Prog.exec_lift, exec_stdCopyP, ih, assertE]

theorem exec_copyDispatchP (dbg : Bool) (n : Nat) (src dst : Desc) :
    (copyDispatchP dbg n src dst : Prog T Unit).exec = copyDispatch dbg n src dst := by
  induction n generalizing dst src with
  | zero => simp only [copyDispatchP, copyDispatch_zero, Prog.exec_bind, Prog.exec_get, Prog.exec_put]
  | succ n ih => simp only [copyDispatchP, copyDispatch_succ, Prog.exec_bind, Prog.exec_lift, exec_stdCopyP, ih]

theorem exec_copyArrayP (dbg : Bool) (src dst : Desc) : (copyArrayP dbg src dst : Prog T Unit).exec = copyArray dbg src dst := by
  simp only [copyArrayP, copyArray, Prog.exec_bind, Prog.exec_lift, exec_copyDispatchP, assertE]

theorem exec_assignLoopP (n : Nat) (out : Ptr) (input : List T) : (assignLoopP n out input).exec = assignLoop n out input := by
  induction n generalizing out input with
  | zero => rfl
  | succ n ih =>
    cases input with
    | nil => rfl
    | cons v vs => simp only [assignLoopP, assignLoop, Prog.exec_bind, Prog.exec_put, ih]

theorem exec_stdForEachP {σ : Type} (body : It → σ → Prog T σ) (n : Nat) (i : It) (q : σ) :
    (stdForEachP body n i q).exec = stdForEach (fun i q => (body i q).exec) n i q := by
  induction n generalizing i q with
  | zero => rfl
  | succ n ih => simp only [stdForEachP, stdForEach, Prog.exec_bind, ih]

theorem exec_forEachAccP {σ : Type} (dbg : Bool) (f : σ → T → T × σ) (n : Nat) (a : Desc) (q : σ) :
    (forEachAccP dbg f n a q).exec = forEachAcc dbg f n a q := by
  induction n generalizing a q with
  | zero => simp only [forEachAccP, forEachAcc_zero, Prog.exec_bind, Prog.exec_get, Prog.exec_put, Prog.exec_pure]
  | succ n ih => simp only [forEachAccP, forEachAcc_succ, Prog.exec_bind, Prog.exec_lift, exec_stdForEachP, ih]

/-- `x` only reads, and computes `r s` from the memory `s`. -/
def Pure (x : Prog T α) (r : St T → Res α) : Prop := ∀ s, x.exec s = Exec.lift (r s) s

theorem Pure.ret (a : α) : Pure (T := T) (.ret a) (fun _ => .ok a) := fun _ => rfl
theorem Pure.lift (r : Res α) : Pure (T := T) (Prog.lift r) (fun _ => r) := fun s => by rw [Prog.exec_lift]
theorem Pure.get (p : Ptr) : Pure (T := T) (Prog.get p) (fun s => loadR s p) := fun s => by
  rw [Prog.exec_get]
  show load p s = Exec.lift (loadR s p) s
  unfold load loadR
  cases s.get? p <;> rfl

theorem Pure.bind {x : Prog T α} {r : St T → Res α} {f : α → Prog T β} {g : α → St T → Res β} (hx : Pure x r) (hf : ∀ a, Pure (f a) (g a)) :
    Pure (x >>= f) (fun s => r s >>= fun a => g a s) := by
  intro s
  rw [Prog.exec_bind]
  show Exec.bind _ _ s = _
  unfold Exec.bind
  rw [hx s]
  cases hr : r s with
  | ok a => simp only [hr, Res.bind_ok]; exact hf a s
  | assertFail => simp only [hr, Res.bind_assertFail]; rfl
  | ub => simp only [hr, Res.bind_ub]; rfl

theorem pure_stdEqualP (eqv : It → It → Prog T Bool) (r : It → It → St T → Res Bool) (h : ∀ i j, Pure (eqv i j) (r i j)) (n : Nat) (i j : It) :
    Pure (stdEqualP eqv n i j) (fun s => stdEqual (fun i j => r i j s) n i j) := by
  induction n generalizing i j with
  | zero => exact Pure.ret _
  | succ n ih =>
    have := Pure.bind (h i j) (f := fun b => if b = true then stdEqualP eqv n i.increment j.increment else pure false)
      (g := fun b s => if b = true then stdEqual (fun i j => r i j s) n i.increment j.increment else .ok false) (by
        intro b
        cases b
        · simp only [Bool.false_eq_true, if_false]; exact Pure.ret _
        · simp only [if_true]; exact ih _ _)
    exact this

theorem pure_equalP (dbg : Bool) (eq : T → T → Bool) (n : Nat) (a b : Desc) :
    Pure (equalP dbg eq n a b) (fun s => equalRef dbg eq s n a b) := by
  induction n generalizing a b with
  | zero =>
    exact Pure.bind (Pure.get a.base) (g := fun x s => loadR s b.base >>= fun y => .ok (eq x y)) (fun x =>
      Pure.bind (Pure.get b.base) (g := fun y _ => .ok (eq x y)) (fun y => Pure.ret _))
  | succ n ih =>
    simp only [equalP, equalRef]
    by_cases h : a.extents = b.extents
    · simp only [if_pos h]
      refine Pure.bind (Pure.lift _) (fun x => Pure.bind (Pure.lift _) (fun y => Pure.bind (Pure.lift _) (fun z => ?_)))
      apply pure_stdEqualP
      intro i j
      exact Pure.bind (Pure.lift _) (fun u => Pure.bind (Pure.lift _) (fun v => ih u v))
    · simp only [if_neg h]; exact Pure.ret _

theorem pure_stdLexCompareP (lt : It → It → Prog T Bool) (r : It → It → St T → Res Bool) (h : ∀ i j, Pure (lt i j) (r i j)) (n m : Nat) (i j : It) :
    Pure (stdLexCompareP lt n m i j) (fun s => stdLexCompare (fun i j => r i j s) n m i j) := by
  induction n generalizing m i j with
  | zero =>
    cases m with
    | zero => exact Pure.ret _
    | succ m => exact Pure.ret _
  | succ n ih =>
    cases m with
    | zero => exact Pure.ret _
    | succ m =>
      simp only [stdLexCompareP, stdLexCompare]
      refine Pure.bind (h i j) (g := fun b s => if b = true then .ok true else r j i s >>= fun c => if c = true then .ok false else
        stdLexCompare (fun i j => r i j s) n m i.increment j.increment) (fun b => ?_)
      cases b
      · simp only [Bool.false_eq_true, if_false]
        refine Pure.bind (h j i) (g := fun c s => if c = true then .ok false else
          stdLexCompare (fun i j => r i j s) n m i.increment j.increment) (fun c => ?_)
        cases c
        · simp only [Bool.false_eq_true, if_false]; exact ih _ _ _
        · simp only [if_true]; exact Pure.ret _
      · simp only [if_true]; exact Pure.ret _

theorem pure_lessP (dbg : Bool) (lt : T → T → Bool) (n : Nat) (a b : Desc) :
    Pure (lessP dbg lt n a b) (fun s => lessRef dbg lt s n a b) := by
  induction n generalizing a b with
  | zero =>
    exact Pure.bind (Pure.get a.base) (g := fun x s => loadR s b.base >>= fun y => .ok (lt x y)) (fun x =>
      Pure.bind (Pure.get b.base) (g := fun y _ => .ok (lt x y)) (fun y => Pure.ret _))
  | succ n ih =>
    simp only [lessP, lessRef]
    refine Pure.bind (Pure.lift _) (fun x => Pure.bind (Pure.lift _) (fun y => Pure.bind (Pure.lift _) (fun z =>
      Pure.bind (Pure.lift _) (fun w => ?_))))
    apply pure_stdLexCompareP
    intro i j
    exact Pure.bind (Pure.lift _) (fun u => Pure.bind (Pure.lift _) (fun v => ih u v))

theorem exec_thread (dbg : Bool) (t : Thread T) : (t.prog dbg).exec = t.exec dbg := by
  induction t with
  | done => rfl
  | read d idx k ih =>
    simp only [Thread.prog, Thread.exec, ← Prog.bind_eq, Prog.exec_bind, exec_readElemP, ih]
  | write d idx v k ih =>
    simp only [Thread.prog, Thread.exec, ← Prog.bind_eq, Prog.exec_bind, exec_writeElemP, ih]
  | assign dst src k ih =>
    simp only [Thread.prog, Thread.exec, ← Prog.bind_eq, Prog.exec_bind, exec_assignP, ih]
  | copyArray src dst k ih =>
    simp only [Thread.prog, Thread.exec, ← Prog.bind_eq, Prog.exec_bind, exec_copyArrayP, ih]
  | forEach d f k ih =>
    simp only [Thread.prog, Thread.exec, ← Prog.bind_eq, Prog.exec_bind, exec_forEachAccP, ih]
    rfl
  | fill a input k ih =>
    simp only [Thread.prog, Thread.exec, ← Prog.bind_eq, Prog.exec_bind, exec_assignLoopP, ih]
    rfl
  | equal a b eq k ih =>
    funext s
    simp only [Thread.prog, Thread.exec, ← Prog.bind_eq, Prog.exec_bind, ih]
    show Exec.bind _ _ s = Exec.bind _ _ s
    unfold Exec.bind
    rw [pure_equalP dbg eq a.extents.length a b s]
  | less a b lt k ih =>
    funext s
    simp only [Thread.prog, Thread.exec, ← Prog.bind_eq, Prog.exec_bind, ih]
    show Exec.bind _ _ s = Exec.bind _ _ s
    unfold Exec.bind
    rw [pure_lessP dbg lt a.extents.length a b s]

/-! ### Footprints -/

/-- The program ends normally, and whatever values it reads, it reads only `R` and writes only `W`. -/
def Confined (R W : Ptr → Prop) : Prog T α → Prop
  | .ret _ => True
  | .load p k => R p ∧ ∀ v, Confined R W (k v)
  | .store p _ k => W p ∧ Confined R W k
  | .assertFail => False
  | .ub => False

theorem Confined.bind {R W : Ptr → Prop} {x : Prog T α} {f : α → Prog T β} (hx : Confined R W x) (hf : ∀ a, Confined R W (f a)) :
    Confined R W (x >>= f) := by
  show Confined R W (Prog.bind x f)
  induction x with
  | ret a => exact hf a
  | load p k ih => exact ⟨hx.1, fun v => ih v (hx.2 v)⟩
  | store p v k ih => exact ⟨hx.1, ih hx.2⟩
  | assertFail => exact hx.elim
  | ub => exact hx.elim

theorem Confined.mono {R W R' W' : Ptr → Prop} {x : Prog T α} (hx : Confined R W x) (hR : ∀ p, R p → R' p) (hW : ∀ p, W p → W' p) :
    Confined R' W' x := by
  induction x with
  | ret a => trivial
  | load p k ih => exact ⟨hR _ hx.1, fun v => ih v (hx.2 v)⟩
  | store p v k ih => exact ⟨hW _ hx.1, ih hx.2⟩
  | assertFail => exact hx.elim
  | ub => exact hx.elim

theorem Confined.pure {R W : Ptr → Prop} (a : α) : Confined R W (pure a : Prog T α) := trivial

theorem confined_stdCopyP {R W : Ptr → Prop} (body : It → It → Prog T Unit) (D D' : Desc) (b b' : Int) (m j : Nat)
    (h : ∀ k, j ≤ k → k < j + m → Confined R W (body ⟨b + (k : Int), D⟩ ⟨b' + (k : Int), D'⟩)) :
    Confined R W (stdCopyP body m ⟨b + (j : Int), D⟩ ⟨b' + (j : Int), D'⟩) := by
  induction m generalizing j with
  | zero => trivial
  | succ m ih =>
    simp only [stdCopyP, It.increment]
    refine Confined.bind (h j (by omega) (by omega)) (fun _ => ?_)
    rw [show b + (j : Int) + 1 = b + ((j + 1 : Nat) : Int) by push_cast; ring,
      show b' + (j : Int) + 1 = b' + ((j + 1 : Nat) : Int) by push_cast; ring]
    exact ih (j + 1) (fun k h1 h2 => h k (by omega) (by omega))

theorem confined_assignLoopP {R W : Ptr → Prop} (n : Nat) (p : Ptr) (input : List T) (h : ∀ k : Nat, k < n → W (p.add k)) :
    Confined R W (assignLoopP n p input) := by
  induction n generalizing p input with
  | zero => trivial
  | succ n ih =>
    cases input with
    | nil => trivial
    | cons v vs =>
      have h0 := h 0 (by omega)
      simp only [Nat.cast_zero, Ptr.add_zero] at h0
      refine ⟨h0, ih (p.add 1) vs (fun k hk => ?_)⟩
      have := h (k + 1) (by omega)
      have he : p.add ((k + 1 : Nat) : Int) = (p.add 1).add (k : Int) := by simp [Ptr.add]; ring
      rwa [he] at this

/-- The elements of a subarray are elements of the array. -/
theorem mem_addrs_sub {p : Ptr} {e : Nat} {es : List Nat} {s : Int} {ss : List Int} {b : Int} {bs : List Int} {k : Nat} (hk : k < e) {q : Ptr}
    (h : q ∈ addrs (subAt p es s ss b bs k)) : q ∈ addrs ⟨p, e :: es, s :: ss, b :: bs⟩ := by
  rw [addrs_cons]
  exact List.mem_flatMap.mpr ⟨k, List.mem_range.mpr hk, h⟩

theorem itsub (p : Ptr) (e : Nat) (es : List Nat) (s : Int) (ss : List Int) (b : Int) (bs : List Int) :
    (It.sub ⟨b + (e : Int), (⟨p, e :: es, s :: ss, b :: bs⟩ : Desc)⟩ ⟨b, ⟨p, e :: es, s :: ss, b :: bs⟩⟩).toNat = e := by
  simp [It.sub, It.distanceTo]

theorem confined_assignP (dbg : Bool) (dst src : Desc) (hd : WellShaped dst) (hs : WellShaped src) (he : src.extents = dst.extents) :
    Confined (· ∈ addrs src) (· ∈ addrs dst) (assignP dbg dst.extents.length dst src : Prog T Unit) := by
  obtain ⟨p, es, ss, bs⟩ := src
  obtain ⟨p', es', ss', bs'⟩ := dst
  simp only at he
  subst he
  induction es generalizing p p' ss ss' bs bs' with
  | nil =>
    match ss, bs, ss', bs', hd, hs with
    | [], [], [], [], _, _ =>
      exact ⟨by simp [addrs_nil], fun v => ⟨by simp [addrs_nil], trivial⟩⟩
  | cons e es ih =>
    match ss, bs, ss', bs', hd, hs with
    | s :: ss, b :: bs, s' :: ss', b' :: bs', hd, hs =>
      simp only [List.length_cons, assignP, begin_cons, end_cons, decide_true, Res.assert_true, Prog.lift_ok, pure_bind]
      rw [itsub]
      have := confined_stdCopyP (R := (· ∈ addrs ⟨p, e :: es, s :: ss, b :: bs⟩)) (W := (· ∈ addrs ⟨p', e :: es, s' :: ss', b' :: bs'⟩))
        (fun i o => (do
          let x ← Prog.lift (i.deref dbg)
          let y ← Prog.lift (o.deref dbg)
          assignP dbg es.length y x : Prog T Unit)) ⟨p, e :: es, s :: ss, b :: bs⟩ ⟨p', e :: es, s' :: ss', b' :: bs'⟩ b b' e 0 (by
        intro k _ hk
        have hk : k < e := by omega
        rw [It.deref_in dbg p e es s ss b bs k hk, It.deref_in dbg p' e es s' ss' b' bs' k hk]
        simp only [Prog.lift_ok, pure_bind]
        exact (ih _ _ _ (wellShaped_subAt hs k) _ _ _ (wellShaped_subAt hd k)).mono (fun _ => mem_addrs_sub hk) (fun _ => mem_addrs_sub hk))
      simpa using this

theorem confined_copyDispatchP (dbg : Bool) (dst src : Desc) (hd : WellShaped dst) (hs : WellShaped src) (he : src.extents = dst.extents) :
    Confined (· ∈ addrs src) (· ∈ addrs dst) (copyDispatchP dbg src.extents.length src dst : Prog T Unit) := by
  obtain ⟨p, es, ss, bs⟩ := src
  obtain ⟨p', es', ss', bs'⟩ := dst
  simp only at he
  subst he
  induction es generalizing p p' ss ss' bs bs' with
  | nil =>
    match ss, bs, ss', bs', hd, hs with
    | [], [], [], [], _, _ =>
      exact ⟨by simp [addrs_nil], fun v => ⟨by simp [addrs_nil], trivial⟩⟩
  | cons e es ih =>
    match ss, bs, ss', bs', hd, hs with
    | s :: ss, b :: bs, s' :: ss', b' :: bs', hd, hs =>
      simp only [List.length_cons, copyDispatchP, begin_cons, end_cons, Prog.lift_ok, pure_bind]
      rw [itsub]
      have := confined_stdCopyP (R := (· ∈ addrs ⟨p, e :: es, s :: ss, b :: bs⟩)) (W := (· ∈ addrs ⟨p', e :: es, s' :: ss', b' :: bs'⟩))
        (fun i o => (do
          let x ← Prog.lift (i.deref dbg)
          let y ← Prog.lift (o.deref dbg)
          copyDispatchP dbg es.length x y : Prog T Unit)) ⟨p, e :: es, s :: ss, b :: bs⟩ ⟨p', e :: es, s' :: ss', b' :: bs'⟩ b b' e 0 (by
        intro k _ hk
        have hk : k < e := by omega
        rw [It.deref_in dbg p e es s ss b bs k hk, It.deref_in dbg p' e es s' ss' b' bs' k hk]
        simp only [Prog.lift_ok, pure_bind]
        exact (ih _ _ _ (wellShaped_subAt hs k) _ _ _ (wellShaped_subAt hd k)).mono (fun _ => mem_addrs_sub hk) (fun _ => mem_addrs_sub hk))
      simpa using this

theorem confined_copyArrayP (dbg : Bool) (dst src : Desc) (hd : WellShaped dst) (hs : WellShaped src) (he : src.extents = dst.extents) :
    Confined (· ∈ addrs src) (· ∈ addrs dst) (copyArrayP dbg src dst : Prog T Unit) := by
  simp only [copyArrayP, he, decide_true, Res.assert_true, Prog.lift_ok, pure_bind]
  rw [← he]
  exact confined_copyDispatchP dbg dst src hd hs he

theorem confined_stdForEachP {R W : Ptr → Prop} {σ : Type} (body : It → σ → Prog T σ) (D : Desc) (b : Int) (m j : Nat)
    (h : ∀ k q, j ≤ k → k < j + m → Confined R W (body ⟨b + (k : Int), D⟩ q)) (q : σ) :
    Confined R W (stdForEachP body m ⟨b + (j : Int), D⟩ q) := by
  induction m generalizing j q with
  | zero => trivial
  | succ m ih =>
    simp only [stdForEachP, It.increment]
    refine Confined.bind (h j q (by omega) (by omega)) (fun q' => ?_)
    rw [show b + (j : Int) + 1 = b + ((j + 1 : Nat) : Int) by push_cast; ring]
    exact ih (j + 1) (fun k q h1 h2 => h k q (by omega) (by omega)) q'

theorem confined_forEachAccP {σ : Type} (dbg : Bool) (f : σ → T → T × σ) (d : Desc) (hd : WellShaped d) (q : σ) :
    Confined (· ∈ addrs d) (· ∈ addrs d) (forEachAccP dbg f d.extents.length d q) := by
  obtain ⟨p, es, ss, bs⟩ := d
  induction es generalizing p ss bs q with
  | nil =>
    match ss, bs, hd with
    | [], [], _ => exact ⟨by simp [addrs_nil], fun v => ⟨by simp [addrs_nil], trivial⟩⟩
  | cons e es ih =>
    match ss, bs, hd with
    | s :: ss, b :: bs, hd =>
      simp only [List.length_cons, forEachAccP, begin_cons, end_cons, Prog.lift_ok, pure_bind]
      rw [itsub]
      have := confined_stdForEachP (R := (· ∈ addrs ⟨p, e :: es, s :: ss, b :: bs⟩)) (W := (· ∈ addrs ⟨p, e :: es, s :: ss, b :: bs⟩))
        (fun i q => (do
          let x ← Prog.lift (i.deref dbg)
          forEachAccP dbg f es.length x q : Prog T σ)) ⟨p, e :: es, s :: ss, b :: bs⟩ b e 0 (by
        intro k q _ hk
        have hk : k < e := by omega
        rw [It.deref_in dbg p e es s ss b bs k hk]
        simp only [Prog.lift_ok, pure_bind]
        exact (ih _ _ _ _ (wellShaped_subAt hd k)).mono (fun _ => mem_addrs_sub hk) (fun _ => mem_addrs_sub hk)) q
      simpa using this

theorem confined_stdEqualP {R W : Ptr → Prop} (eqv : It → It → Prog T Bool) (D D' : Desc) (b b' : Int) (m j : Nat)
    (h : ∀ k, j ≤ k → k < j + m → Confined R W (eqv ⟨b + (k : Int), D⟩ ⟨b' + (k : Int), D'⟩)) :
    Confined R W (stdEqualP eqv m ⟨b + (j : Int), D⟩ ⟨b' + (j : Int), D'⟩) := by
  induction m generalizing j with
  | zero => trivial
  | succ m ih =>
    simp only [stdEqualP, It.increment]
    refine Confined.bind (h j (by omega) (by omega)) (fun r => ?_)
    split
    · rw [show b + (j : Int) + 1 = b + ((j + 1 : Nat) : Int) by push_cast; ring,
        show b' + (j : Int) + 1 = b' + ((j + 1 : Nat) : Int) by push_cast; ring]
      exact ih (j + 1) (fun k h1 h2 => h k (by omega) (by omega))
    · trivial

theorem confined_equalP (dbg : Bool) (eq : T → T → Bool) (R W : Ptr → Prop) (n : Nat) (a b : Desc) (ha : WellShaped a) (hb : WellShaped b)
    (hna : a.extents.length = n) (hnb : b.extents.length = n) (hR : ∀ p, p ∈ addrs a ∨ p ∈ addrs b → R p) :
    Confined R W (equalP dbg eq n a b) := by
  induction n generalizing a b with
  | zero =>
    obtain ⟨p, es, ss, bs⟩ := a
    obtain ⟨p', es', ss', bs'⟩ := b
    match es, ss, bs, es', ss', bs', hna, hnb, ha, hb with
    | [], [], [], [], [], [], _, _, _, _ =>
      exact ⟨hR _ (.inl (by simp [addrs_nil])), fun v => ⟨hR _ (.inr (by simp [addrs_nil])), fun _ => trivial⟩⟩
  | succ n ih =>
    obtain ⟨p, es, ss, bs⟩ := a
    obtain ⟨p', es', ss', bs'⟩ := b
    match es, ss, bs, es', ss', bs', hna, hnb, ha, hb with
    | e :: es, s :: ss, b :: bs, e' :: es', s' :: ss', b' :: bs', hna, hnb, ha, hb =>
      simp only [equalP]
      split
      · next hext =>
        injection hext with h1 h2
        subst h1; subst h2
        simp only [begin_cons, end_cons, Prog.lift_ok, pure_bind]
        rw [itsub]
        have := confined_stdEqualP (R := R) (W := W) (fun i j => (do
            let x ← Prog.lift (i.deref dbg)
            let y ← Prog.lift (j.deref dbg)
            equalP dbg eq n x y : Prog T Bool)) ⟨p, e :: es, s :: ss, b :: bs⟩ ⟨p', e :: es, s' :: ss', b' :: bs'⟩ b b' e 0 (by
          intro k _ hk
          have hk : k < e := by omega
          rw [It.deref_in dbg p e es s ss b bs k hk, It.deref_in dbg p' e es s' ss' b' bs' k hk]
          simp only [Prog.lift_ok, pure_bind]
          refine ih _ _ (wellShaped_subAt ha k) (wellShaped_subAt hb k) (by simpa [subAt] using hna) (by simpa [subAt] using hnb) ?_
          rintro q (hq | hq)
          · exact hR q (.inl (mem_addrs_sub hk hq))
          · exact hR q (.inr (mem_addrs_sub hk hq)))
        simpa using this
      · trivial

theorem confined_stdLexCompareP {R W : Ptr → Prop} (lt : It → It → Prog T Bool) (D D' : Desc) (b b' : Int) (n m j : Nat)
    (h : ∀ k, j ≤ k → k < j + n → k < j + m → Confined R W (lt ⟨b + (k : Int), D⟩ ⟨b' + (k : Int), D'⟩))
    (h' : ∀ k, j ≤ k → k < j + n → k < j + m → Confined R W (lt ⟨b' + (k : Int), D'⟩ ⟨b + (k : Int), D⟩)) :
    Confined R W (stdLexCompareP lt n m ⟨b + (j : Int), D⟩ ⟨b' + (j : Int), D'⟩) := by
  induction n generalizing m j with
  | zero => cases m <;> trivial
  | succ n ih =>
    cases m with
    | zero => trivial
    | succ m =>
      simp only [stdLexCompareP, It.increment]
      refine Confined.bind (h j (by omega) (by omega) (by omega)) (fun r => ?_)
      split
      · trivial
      · refine Confined.bind (h' j (by omega) (by omega) (by omega)) (fun r => ?_)
        split
        · trivial
        · rw [show b + (j : Int) + 1 = b + ((j + 1 : Nat) : Int) by push_cast; ring,
            show b' + (j : Int) + 1 = b' + ((j + 1 : Nat) : Int) by push_cast; ring]
          exact ih m (j + 1) (fun k h1 h2 h3 => h k (by omega) (by omega) (by omega))
            (fun k h1 h2 h3 => h' k (by omega) (by omega) (by omega))

theorem confined_lessP (dbg : Bool) (lt : T → T → Bool) (R W : Ptr → Prop) (n : Nat) (a b : Desc) (ha : WellShaped a) (hb : WellShaped b)
    (hna : a.extents.length = n) (hnb : b.extents.length = n) (hR : ∀ p, p ∈ addrs a ∨ p ∈ addrs b → R p) :
    Confined R W (lessP dbg lt n a b) := by
  induction n generalizing a b with
  | zero =>
    obtain ⟨p, es, ss, bs⟩ := a
    obtain ⟨p', es', ss', bs'⟩ := b
    match es, ss, bs, es', ss', bs', hna, hnb, ha, hb with
    | [], [], [], [], [], [], _, _, _, _ =>
      exact ⟨hR _ (.inl (by simp [addrs_nil])), fun v => ⟨hR _ (.inr (by simp [addrs_nil])), fun _ => trivial⟩⟩
  | succ n ih =>
    obtain ⟨p, es, ss, bs⟩ := a
    obtain ⟨p', es', ss', bs'⟩ := b
    match es, ss, bs, es', ss', bs', hna, hnb, ha, hb with
    | e :: es, s :: ss, b :: bs, e' :: es', s' :: ss', b' :: bs', hna, hnb, ha, hb =>
      simp only [lessP, begin_cons, end_cons, Prog.lift_ok, pure_bind]
      rw [itsub, itsub]
      have := confined_stdLexCompareP (R := R) (W := W) (fun i j => (do
          let x ← Prog.lift (i.deref dbg)
          let y ← Prog.lift (j.deref dbg)
          lessP dbg lt n x y : Prog T Bool)) ⟨p, e :: es, s :: ss, b :: bs⟩ ⟨p', e' :: es', s' :: ss', b' :: bs'⟩ b b' e e' 0 (by
        intro k _ hk hk'
        have hk : k < e := by omega
        have hk' : k < e' := by omega
        rw [It.deref_in dbg p e es s ss b bs k hk, It.deref_in dbg p' e' es' s' ss' b' bs' k hk']
        simp only [Prog.lift_ok, pure_bind]
        refine ih _ _ (wellShaped_subAt ha k) (wellShaped_subAt hb k) (by simpa [subAt] using hna) (by simpa [subAt] using hnb) ?_
        rintro q (hq | hq)
        · exact hR q (.inl (mem_addrs_sub hk hq))
        · exact hR q (.inr (mem_addrs_sub hk' hq))) (by
        intro k _ hk hk'
        have hk : k < e := by omega
        have hk' : k < e' := by omega
        rw [It.deref_in dbg p e es s ss b bs k hk, It.deref_in dbg p' e' es' s' ss' b' bs' k hk']
        simp only [Prog.lift_ok, pure_bind]
        refine ih _ _ (wellShaped_subAt hb k) (wellShaped_subAt ha k) (by simpa [subAt] using hnb) (by simpa [subAt] using hna) ?_
        rintro q (hq | hq)
        · exact hR q (.inr (mem_addrs_sub hk' hq))
        · exact hR q (.inl (mem_addrs_sub hk hq)))
      simpa using this

end MultiArray
