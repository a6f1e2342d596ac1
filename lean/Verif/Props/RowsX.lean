import Verif.Lemmas.RowsX
import Verif.Props.Rows

/- Property theorems C97: iterator algorithms on rows when allocation, element construction and element assignment may throw. -/
set_option autoImplicit false

namespace MultiArray.Props
open MultiArray MultiArray.Spec
variable {T α : Type}

/-- From the proof invariant to what a client can see. -/
theorem holdsAll_of_calm {L : List Nat} {w wt : World T} {A : AState T} (h : WCalm L w wt) (hr : wt.Rep A) : w.HoldsAll A L.length := by
  obtain ⟨ho, hc⟩ := h
  refine ⟨?_, ?_, ?_, L, Nat.le_refl _, ?_⟩
  · intro x
    rw [ho]
    refine ⟨hr.dead x, fun hA => ?_⟩
    cases hx : wt.objs x with
    | none => rfl
    | some a =>
      obtain ⟨abs, h1, _⟩ := hr.live x a hx
      rw [hA] at h1; cases h1
  · intro x a abs hx hA
    rw [ho] at hx
    obtain ⟨abs', h1, h2⟩ := hr.live x a hx
    rw [hA] at h1; cases h1
    exact ⟨hc.owns h2.owns, h2.bases, h2.extents, h2.order⟩
  · intro x y a b hx hy hne
    rw [ho] at hx hy
    exact fun he => hne (hr.valid.distinct x y a b hx hy he)
  · intro b hb
    by_cases hbL : b ∈ L
    · exact .inl hbL
    · right
      rw [ho]
      exact hr.noLeak b (by rw [hc.same b hbL]; exact hb)

theorem Spec.World.HoldsAll.mono {w : World T} {A : AState T} {n m : Nat} (h : w.HoldsAll A n) (hm : n ≤ m) : w.HoldsAll A m := by
  obtain ⟨L, h1, h2⟩ := h.lost
  exact ⟨h.live, h.holds, h.apart, L, Nat.le_trans h1 hm, h2⟩

/-- **C97.** An algorithm on rows (as in C92), when the allocator and the constructors and assignments of elements throw as `sched` says.  It never fails an assertion or runs
into undefined behaviour.  Either it completes, with the result and the rows of plain lists and no storage lost; or an exception was due and leaves the
algorithm: then all temporaries are gone, the rows are what `Stopped` says, nothing outside the sequences has changed, and at most one block of storage is lost. -/
theorem C97_rows_under_exceptions (dbg : Bool) (dflt : T) (eq lt : T → T → Bool) (alloc : Nat) {w : World T} {A : AState T} (hw : w.Rep A) (sched : List (Option T))
    {seqs : Nat → Option (Nat × List Sel)} {free : Nat → Nat} {es : List Nat} (S : RowSetup A seqs free es) {R R' : Rows T} (hR : A.HoldsRows seqs R)
    (hT : R.tmps = fun _ => none) (alg : RAlg T α) {a : α} (hrun : alg.run eq lt (A.rowCount seqs) (fun _ => none) R = some (a, R')) :
    (∃ w' A', alg.execX dbg dflt eq lt seqs free alloc (fun _ => none) [] { w with st := { w.st with sched := sched } } = .done a w' ∧ w'.HoldsAll A' 0 ∧
      A'.HoldsRows seqs R' ∧ A.OnlyRows A' seqs free ∧
      ∀ t, match R'.tmps t with
        | none => A' (free t) = none
        | some v => ∃ m, A' (free t) = some m ∧ m.extents = es ∧ A'.values (free t) m.whole = some v) ∨
    (∃ w' A' Q, alg.execX dbg dflt eq lt seqs free alloc (fun _ => none) [] { w with st := { w.st with sched := sched } } = .threw w' ∧ w'.HoldsAll A' 1 ∧
      alg.Stopped eq lt (A.rowCount seqs) (fun _ => none) R Q ∧ A'.HoldsRows seqs ⟨Q, fun _ => none⟩ ∧ A.OnlyRows A' seqs free ∧ (∀ t, A' (free t) = none) ∧
      ∃ v, some v ∈ sched) := by
  have h0 : RowInv dbg A seqs free es (fun c => (seqs c).bind (fun x => w.lookup dbg x.1 x.2)) w A R :=
    ⟨hw, fun c x ss h => by simp [h], hR, fun t _ => S.fresh t, fun t v h => by simp [hT] at h, ⟨fun _ _ => rfl, fun _ _ _ _ => rfl⟩, fun t a h => by rw [S.fresh t] at h; cases h⟩
  have hwc : WCalm [] ({ w with st := { w.st with sched := sched } } : World T) w := ⟨rfl, ⟨hw.sched, rfl, fun _ h => (nomatch h), fun _ _ => rfl⟩⟩
  rcases rowsX_run dflt eq lt alloc S alg (fun _ => none) (fun _ => none) [] _ w A R hwc h0 (fun r sp h => by cases h) List.nodup_nil (fun t => by simp [hT]) a R' hrun with
    ⟨w', wt', A', e1, e2, e3, e4⟩ | ⟨w', wt', L', A', Q, e1, e2, e3, e4, e5, e6⟩
  · refine .inl ⟨w', A', e1, holdsAll_of_calm e2 e3.rep, e3.rows, e3.only, fun t => ?_⟩
    cases ht : R'.tmps t with
    | none => exact e3.dead t ht
    | some v => exact e3.live t v ht
  · refine .inr ⟨w', A', Q, e1, Spec.World.HoldsAll.mono (holdsAll_of_calm e3 e4.rep) e5, e2, e4.rows, e4.only, fun t => e4.dead t rfl, ?_⟩
    have hpos : 0 < (sched.filter Option.isSome).length := Nat.lt_of_le_of_lt (Nat.zero_le _) e6
    obtain ⟨x, hx⟩ := List.exists_mem_of_length_pos hpos
    rw [List.mem_filter] at hx
    cases x with
    | none => simp at hx
    | some v => exact ⟨v, hx.1⟩

/-- Without exceptions the two executions are the same. -/
theorem C97_same_execution (dbg : Bool) (dflt : T) (eq lt : T → T → Bool) (seqs : Nat → Option (Nat × List Sel)) (free : Nat → Nat) (alloc : Nat) (alg : RAlg T α) :
    ∀ (its : Nat → Option AnyIt) (live : List Nat) (w w' : World T) (a : α),
      alg.exec dbg dflt eq lt seqs free alloc its w = some (a, w') ↔ alg.execX dbg dflt eq lt seqs free alloc its live w = .done a w' := by
  have ofOpt : ∀ {β : Type} (o : Option β) (f : β → Option (α × World T)) (g : β → RowOut T α) (a : α) (w' : World T), (∀ b, f b = some (a, w') ↔ g b = .done a w') →
      (o.bind f = some (a, w') ↔ RowOut.ofOption o g = .done a w') := by
    intro β o f g a w' h
    cases o with
    | none => simp [RowOut.ofOption]
    | some b => exact h b
  have ofRes : ∀ (r : Result T) (f : World T → Option (α × World T)) (g h : World T → RowOut T α) (a : α) (w' : World T), (∀ b, f b = some (a, w') ↔ g b = .done a w') →
      (∀ b, h b ≠ .done a w') → ((Result.ok? r).bind f = some (a, w') ↔ RowOut.after r g h = .done a w') := by
    intro r f g h a w' h1 h2
    cases r with
    | ok w => exact h1 w
    | threw w => simp [Result.ok?, RowOut.after, h2]
    | failed => simp [Result.ok?, RowOut.after]
  have lv : ∀ (live : List Nat) (a : α) (w' b : World T), (b.leave dbg dflt free live : RowOut T α) ≠ .done a w' := by
    intro live a w' b
    unfold World.leave
    cases b.unwind dbg dflt free live <;> simp [RowOut.ofOption]
  induction alg with
  | ret a => intro its live w w' a'; simp [RAlg.exec, RAlg.execX]
  | begin r c k ih =>
    intro its live w w' a
    simp only [RAlg.exec, RAlg.execX, ← Option.bind_assoc]
    refine Iff.trans ?_ (ofOpt _ _ _ a w' (fun b => ih _ live w w' a))
    simp only [Option.bind_assoc]
  | fin r c k ih =>
    intro its live w w' a
    simp only [RAlg.exec, RAlg.execX]
    refine Iff.trans ?_ (ofOpt _ _ _ a w' (fun b => ih _ live w w' a))
    simp only [Option.bind_assoc]
  | rbegin r c k ih =>
    intro its live w w' a
    simp only [RAlg.exec, RAlg.execX]
    refine Iff.trans ?_ (ofOpt _ _ _ a w' (fun b => ih _ live w w' a))
    simp only [Option.bind_assoc]
  | rfin r c k ih =>
    intro its live w w' a
    simp only [RAlg.exec, RAlg.execX]
    refine Iff.trans ?_ (ofOpt _ _ _ a w' (fun b => ih _ live w w' a))
    simp only [Option.bind_assoc]
  | copy r r' k ih =>
    intro its live w w' a
    exact ofOpt _ _ _ a w' (fun b => ih _ live w w' a)
  | base r r' k ih =>
    intro its live w w' a
    simp only [RAlg.exec, RAlg.execX]
    refine Iff.trans ?_ (ofOpt _ _ _ a w' (fun b => ih _ live w w' a))
    simp only [Option.bind_assoc]
  | add r n k ih =>
    intro its live w w' a
    exact ofOpt _ _ _ a w' (fun b => ih _ live w w' a)
  | equal r r' k ih =>
    intro its live w w' a
    simp only [RAlg.exec, RAlg.execX]
    refine Iff.trans ?_ (ofOpt _ _ _ a w' (fun b => ih _ _ live w w' a))
    simp only [Option.bind_assoc]
  | less r r' k ih =>
    intro its live w w' a
    simp only [RAlg.exec, RAlg.execX]
    refine Iff.trans ?_ (ofOpt _ _ _ a w' (fun b => ih _ _ live w w' a))
    simp only [Option.bind_assoc]
  | diff r r' k ih =>
    intro its live w w' a
    simp only [RAlg.exec, RAlg.execX]
    refine Iff.trans ?_ (ofOpt _ _ _ a w' (fun b => ih _ _ live w w' a))
    simp only [Option.bind_assoc]
  | take t s k ih =>
    intro its live w w' a
    simp only [RAlg.exec, RAlg.execX, takeRow_eq]
    exact ofRes _ _ _ _ a w' (fun b => ih _ _ b w' a) (lv live a w')
  | drop t k ih =>
    intro its live w w' a
    exact ofRes _ _ _ _ a w' (fun b => ih _ _ b w' a) (fun b => by simp)
  | assign d s k ih =>
    intro its live w w' a
    simp only [RAlg.exec, RAlg.execX, assignRow_eq]
    exact ofRes _ _ _ _ a w' (fun b => ih _ _ b w' a) (lv live a w')
  | look s k ih =>
    intro its live w w' a
    simp only [RAlg.exec, RAlg.execX]
    refine Iff.trans ?_ (ofOpt _ _ _ a w' (fun b => ih _ _ live w w' a))
    simp only [Option.bind_assoc]
  | rowEq s s' k ih =>
    intro its live w w' a
    simp only [RAlg.exec, RAlg.execX]
    refine Iff.trans ?_ (ofOpt _ _ _ a w' (fun b => ih _ _ live w w' a))
    simp only [Option.bind_assoc]
  | rowLt s s' k ih =>
    intro its live w w' a
    simp only [RAlg.exec, RAlg.execX]
    refine Iff.trans ?_ (ofOpt _ _ _ a w' (fun b => ih _ _ live w w' a))
    simp only [Option.bind_assoc]

/-! ### No row is invented -/

/-- A row that was in one of the sequences at the start. -/
def WasRow (R0 : Rows T) (v : List T) : Prop := ∃ c, v ∈ R0.seqs c

/-- All rows and temporaries were rows at the start. -/
def AllWere (R0 R : Rows T) : Prop := (∀ c v, v ∈ R.seqs c → WasRow R0 v) ∧ ∀ t v, R.tmps t = some v → WasRow R0 v

theorem AllWere.value {R0 R : Rows T} (h : AllWere R0 R) {len : Nat → Option Nat} {ps : Nat → Option SPos} {s : RowArg} {v : List T} (hv : R.value len ps s = some v) : WasRow R0 v := by
  cases s with
  | tmp t => exact h.2 t v hv
  | row r =>
    simp only [Rows.value, Option.bind_eq_some_iff, Seqs.valueAt] at hv
    obtain ⟨p, _, i, _, hv⟩ := hv
    exact h.1 p.seq v (List.mem_of_getElem? hv)

theorem AllWere.setTmp {R0 R : Rows T} (h : AllWere R0 R) (t : Nat) {v : Option (List T)} (hv : ∀ u, v = some u → WasRow R0 u) : AllWere R0 (R.setTmp t v) := by
  refine ⟨h.1, fun t' u hu => ?_⟩
  simp only [Rows.setTmp] at hu
  split at hu
  · exact hv u hu
  · exact h.2 t' u hu

theorem AllWere.assign {R0 R R' : Rows T} (h : AllWere R0 R) {len : Nat → Option Nat} {ps : Nat → Option SPos} {d : RowArg} {v : List T} (hv : WasRow R0 v)
    (hd : R.assign len ps v d = some R') : AllWere R0 R' := by
  cases d with
  | tmp t =>
    simp only [Rows.assign, Option.map_eq_some_iff] at hd
    obtain ⟨_, _, rfl⟩ := hd
    exact h.setTmp t (fun u hu => by cases hu; exact hv)
  | row r =>
    simp only [Rows.assign, Option.bind_eq_some_iff, Option.map_eq_some_iff] at hd
    obtain ⟨p, _, i, _, rfl⟩ := hd
    refine ⟨fun c u hu => ?_, h.2⟩
    simp only [rowSeqs] at hu
    split at hu
    · rcases List.mem_or_eq_of_mem_set hu with hu | rfl
      · exact h.1 _ u hu
      · exact hv
    · exact h.1 c u hu

/-- Every row is one of the rows at the start, except at most one, which is the beginning of one such row, a left-over value, and the end of another. -/
def OneTorn (R0 : Rows T) (Q : Nat → List (List T)) : Prop :=
  ∃ (c0 i0 : Nat), (∀ (c i : Nat) (r : List T), (Q c)[i]? = some r → ¬ (c = c0 ∧ i = i0) → WasRow R0 r) ∧
    ∀ r, (Q c0)[i0]? = some r → WasRow R0 r ∨ ∃ v u j junk, WasRow R0 v ∧ WasRow R0 u ∧ j < u.length ∧ r = v.take j ++ junk :: u.drop (j + 1)

theorem AllWere.torn {R0 R : Rows T} (h : AllWere R0 R) : OneTorn R0 R.seqs :=
  ⟨0, 0, fun c i r hr _ => h.1 c r (List.mem_of_getElem? hr), fun r hr => .inl (h.1 0 r (List.mem_of_getElem? hr))⟩

theorem stopped_torn (eq lt : T → T → Bool) (len : Nat → Option Nat) (R0 : Rows T) (alg : RAlg T α) : ∀ (ps : Nat → Option SPos) (R : Rows T) (Q : Nat → List (List T)),
    AllWere R0 R → alg.Stopped eq lt len ps R Q → OneTorn R0 Q := by
  induction alg with
  | ret a => intro ps R Q _ h; exact h.elim
  | begin r c k ih => rintro ps R Q hR ⟨e, _, h⟩; exact ih _ R Q hR h
  | fin r c k ih => rintro ps R Q hR ⟨e, _, h⟩; exact ih _ R Q hR h
  | rbegin r c k ih => rintro ps R Q hR ⟨e, _, h⟩; exact ih _ R Q hR h
  | rfin r c k ih => rintro ps R Q hR ⟨e, _, h⟩; exact ih _ R Q hR h
  | copy r r' k ih => rintro ps R Q hR ⟨e, _, h⟩; exact ih _ R Q hR h
  | base r r' k ih => rintro ps R Q hR ⟨e, _, h⟩; exact ih _ R Q hR h
  | add r n k ih => rintro ps R Q hR ⟨e, _, h⟩; exact ih _ R Q hR h
  | equal r r' k ih => rintro ps R Q hR ⟨e, _, h⟩; exact ih _ _ R Q hR h
  | less r r' k ih => rintro ps R Q hR ⟨e, _, h⟩; exact ih _ _ R Q hR h
  | diff r r' k ih => rintro ps R Q hR ⟨e, _, h⟩; exact ih _ _ R Q hR h
  | take t s k ih =>
    rintro ps R Q hR (rfl | ⟨v, hv, h⟩)
    · exact hR.torn
    · exact ih _ _ Q (hR.setTmp t (fun u hu => by cases hu; exact hR.value hv)) h
  | drop t k ih => intro ps R Q hR h; exact ih _ _ Q (hR.setTmp t (fun u hu => by cases hu)) h
  | assign d s k ih =>
    rintro ps R Q hR ⟨v, hv, ⟨u, j, junk, R', hu, hj, hd, rfl⟩ | ⟨R', hd, h⟩⟩
    · cases d with
      | tmp t =>
        simp only [Rows.assign, Option.map_eq_some_iff] at hd
        obtain ⟨_, _, rfl⟩ := hd
        exact hR.torn
      | row r =>
        have hu' := hR.value hu
        simp only [Rows.assign, Option.bind_eq_some_iff, Option.map_eq_some_iff] at hd
        obtain ⟨p, _, i, _, rfl⟩ := hd
        refine ⟨p.seq, i, ?_, ?_⟩
        · intro c i' x hx hne
          simp only [rowSeqs] at hx
          split at hx
          · rename_i hc
            rw [List.getElem?_set_ne (fun e => hne ⟨hc, e.symm⟩)] at hx
            exact hR.1 _ x (List.mem_of_getElem? hx)
          · exact hR.1 c x (List.mem_of_getElem? hx)
        · intro x hx
          simp only [rowSeqs, if_true] at hx
          have hlen : i < (R.seqs p.seq).length := by
            by_contra hh
            rw [List.getElem?_eq_none (by simpa using hh)] at hx
            cases hx
          rw [List.getElem?_set_self hlen] at hx
          cases hx
          exact .inr ⟨v, u, j, junk, hR.value hv, hu', hj, rfl⟩
    · exact ih _ _ Q (hR.assign (hR.value hv) hd) h
  | look s k ih => rintro ps R Q hR ⟨e, _, h⟩; exact ih _ _ R Q hR h
  | rowEq s s' k ih => rintro ps R Q hR ⟨e, _, _, _, h⟩; exact ih _ _ R Q hR h
  | rowLt s s' k ih => rintro ps R Q hR ⟨e, _, _, _, h⟩; exact ih _ _ R Q hR h

/-- **C97, no row is invented.** When an exception leaves an algorithm on rows, every row of every sequence is one of the rows there were at the start, except at most one: the row that
was being assigned, which begins like one such row, ends like another, and has one left-over element between. -/
theorem C97_no_row_invented (eq lt : T → T → Bool) (len : Nat → Option Nat) {R : Rows T} (hT : R.tmps = fun _ => none) (alg : RAlg T α) {ps : Nat → Option SPos} {Q : Nat → List (List T)}
    (h : alg.Stopped eq lt len ps R Q) :
    ∃ (c0 i0 : Nat), (∀ (c i : Nat) (r : List T), (Q c)[i]? = some r → ¬ (c = c0 ∧ i = i0) → ∃ c', r ∈ R.seqs c') ∧
      ∀ r, (Q c0)[i0]? = some r → (∃ c', r ∈ R.seqs c') ∨
        ∃ v u j junk, (∃ c', v ∈ R.seqs c') ∧ (∃ c', u ∈ R.seqs c') ∧ j < u.length ∧ r = v.take j ++ junk :: u.drop (j + 1) :=
  stopped_torn eq lt len R alg ps R Q ⟨fun c v hv => ⟨c, hv⟩, fun t v hv => by simp [hT] at hv⟩ h

/-! ### Insertion sort that is interrupted -/

/-- **C97, an instance.** Insertion sort of the rows of any array, subarray or view by any strict weak order, when anything may throw: it sorts, or an exception was due; then its temporary is
gone, every row but at most one is one of the rows before, that one is torn between two of them, nothing else has changed, and at most one block of storage is lost. -/
theorem C97_insertion_sort (dbg : Bool) (dflt : T) (eq lt : T → T → Bool) (alloc : Nat) {comp : List T → List T → Bool} (hc : StrictWeak comp) {w : World T} {A : AState T}
    (hw : w.Rep A) (sched : List (Option T)) {x : Nat} {ss : List Sel} {p : APart} (hp : A.Part x ss p) {b : Int} {bs : List Int} {e : Nat} {es : List Nat} (hb : p.bases = b :: bs)
    (he : p.extents = e :: es) (hes : es ≠ []) {y : Nat} (hy : ∀ t, A (y + t) = none) {fuel : Nat} (hf : e < fuel) :
    ∃ (w' : World T) (A' : AState T) (rows rows' : List (List T)), rows.length = e ∧ rows'.length = e ∧ (∀ i v, rows[i]? = some v → A.values x (p.rowPart i) = some v) ∧
      (∀ i v, rows'[i]? = some v → A'.values x (p.rowPart i) = some v) ∧ (∀ t, A' (y + t) = none) ∧ (∀ z, A'.header z = A.header z) ∧
      (∀ z idx, A.InRange z idx → (z = x → ∀ i, InBox p.bases p.extents i → p.root i ≠ idx) → A'.get z idx = A.get z idx) ∧
      (((insertionSort comp fuel).execX dbg dflt eq lt (fun c => if c = 0 then some (x, ss) else none) (fun t => y + t) alloc (fun _ => none) []
          { w with st := { w.st with sched := sched } } = .done true w' ∧ w'.HoldsAll A' 0 ∧ rows'.Perm rows ∧ rows'.Pairwise (fun r r' => comp r' r = false)) ∨
       ((insertionSort comp fuel).execX dbg dflt eq lt (fun c => if c = 0 then some (x, ss) else none) (fun t => y + t) alloc (fun _ => none) []
          { w with st := { w.st with sched := sched } } = .threw w' ∧ w'.HoldsAll A' 1 ∧ (∃ v, some v ∈ sched) ∧
          ∃ i0 : Nat, (∀ (i : Nat) (r : List T), rows'[i]? = some r → i ≠ i0 → r ∈ rows) ∧
            ∀ r, rows'[i0]? = some r → r ∈ rows ∨ ∃ v u j junk, v ∈ rows ∧ u ∈ rows ∧ j < u.length ∧ r = v.take j ++ junk :: u.drop (j + 1))) := by
  have S : RowSetup A (fun c => if c = 0 then some (x, ss) else none) (fun t => y + t) es := by
    refine ⟨hes, ?_, ?_, hy, fun t t' h => by simpa using h⟩
    · intro c x' ss' h
      split at h
      · cases h; exact ⟨p, b, bs, e, hp, hb, he⟩
      · cases h
    · intro c c' x' s1 s2 p1 p2 hne h1 h2
      split at h1
      · split at h2
        · omega
        · cases h2
      · cases h1
  have hpp := part_some hp
  have hcnt : A.rowCount (fun c => if c = 0 then some (x, ss) else none) 0 = some e := by simp [AState.rowCount, hpp, he]
  obtain ⟨R0, hR0, hT0⟩ := C92_rows_exist hw S
  -- only sequence 0 matters
  have ⟨R, hR, hT, hother⟩ : ∃ R : Rows T, A.HoldsRows (fun c => if c = 0 then some (x, ss) else none) R ∧ R.tmps = (fun _ => none) ∧ ∀ c, c ≠ 0 → R.seqs c = [] := by
    refine ⟨⟨fun c => if c = 0 then R0.seqs 0 else [], fun _ => none⟩, ?_, rfl, fun c hc => by simp [hc]⟩
    intro c x' ss' p' h1 h2
    by_cases hc0 : c = 0
    · subst hc0
      simpa using hR0 0 x' ss' p' h1 h2
    · simp [hc0] at h1
  obtain ⟨hl, hrows⟩ := hR 0 x ss p (by simp) hpp
  rw [he] at hl
  have hl : (R.seqs 0).length = e := hl
  obtain ⟨R', f1, f2, f3, f4⟩ := sortLoop_run eq lt hc hcnt fuel hf fuel [] (R.seqs 0)
    (Seqs.setPos (Seqs.setPos (Seqs.setPos (fun _ => none) 0 ⟨0, false, 0⟩) 1 ⟨0, false, 0⟩) 4 ⟨0, false, e⟩) R rfl (by simpa using hl) List.Pairwise.nil hT
    rfl rfl rfl (by omega)
  have hmem : ∀ r, (∃ c', r ∈ R.seqs c') → r ∈ R.seqs 0 := by
    rintro r ⟨c', hr⟩
    by_cases hc' : c' = 0
    · rw [← hc']; exact hr
    · rw [hother c' hc'] at hr; cases hr
  have fin : ∀ (A' : AState T) (R' : Rows T), (∀ t, A' (y + t) = none) → A'.HoldsRows (fun c => if c = 0 then some (x, ss) else none) R' →
      A.OnlyRows A' (fun c => if c = 0 then some (x, ss) else none) (fun t => y + t) →
      (R'.seqs 0).length = e ∧ (∀ i v, (R'.seqs 0)[i]? = some v → A'.values x (p.rowPart i) = some v) ∧ (∀ z, A'.header z = A.header z) ∧
      (∀ z idx, A.InRange z idx → (z = x → ∀ i, InBox p.bases p.extents i → p.root i ≠ idx) → A'.get z idx = A.get z idx) := by
    intro A' R' hdead h3 h4
    have hhead : ∀ z, A'.header z = A.header z := by
      intro z
      by_cases hz : ∃ t, z = y + t
      · obtain ⟨t, rfl⟩ := hz
        simp [AState.header, hdead, hy]
      · exact h4.1 z (fun t ht => hz ⟨t, ht⟩)
    obtain ⟨k1, k2⟩ := h3 0 x ss p (by simp) ((part_of_header (hhead x) ss).trans hpp)
    refine ⟨by rw [k1, he]; rfl, k2, hhead, ?_⟩
    intro z idx hin hz
    refine h4.2 z idx hin (fun c ss' p' h1 h2 i hi => ?_)
    simp only at h1
    split at h1
    · cases h1
      rw [hpp] at h2
      cases h2
      exact hz rfl i hi
    · cases h1
  rcases C97_rows_under_exceptions dbg dflt eq lt alloc hw sched S hR hT (insertionSort comp fuel) (a := true) (R' := R') (by
    simp only [insertionSort, RAlg.run, hcnt, Option.bind_some]
    exact f1) with ⟨w', A', g1, g2, g3, g4, g5⟩ | ⟨w', A', Q, g1, g2, g3, g4, g5, g6, g7⟩
  · have hdead : ∀ t, A' (y + t) = none := by
      intro t
      have := g5 t
      rw [f4] at this
      exact this
    obtain ⟨k1, k2, k3, k4⟩ := fin A' R' hdead g3 g4
    exact ⟨w', A', R.seqs 0, R'.seqs 0, hl, k1, hrows, k2, hdead, k3, k4, .inl ⟨g1, g2, by simpa using f2, f3⟩⟩
  · obtain ⟨k1, k2, k3, k4⟩ := fin A' ⟨Q, fun _ => none⟩ g6 g4 g5
    refine ⟨w', A', R.seqs 0, Q 0, hl, k1, hrows, k2, g6, k3, k4, .inr ⟨g1, g2, g7, ?_⟩⟩
    obtain ⟨c0, i0, q1, q2⟩ := C97_no_row_invented eq lt _ hT _ g3
    by_cases hc0 : c0 = 0
    · subst hc0
      refine ⟨i0, fun i r hr hi => hmem r (q1 0 i r hr (fun h => hi h.2)), fun r hr => ?_⟩
      rcases q2 r hr with h | ⟨v, u, j, junk, h1, h2, h3, h4⟩
      · exact .inl (hmem r h)
      · exact .inr ⟨v, u, j, junk, hmem v h1, hmem u h2, h3, h4⟩
    · exact ⟨0, fun i r hr hi => hmem r (q1 0 i r hr (fun h => hc0 h.1.symm)), fun r hr => .inl (hmem r (q1 0 0 r hr (fun h => hc0 h.1.symm)))⟩

/-! ### States that meet the hypotheses -/

/-- The hypotheses hold for `b(extents[range(1,4)][2], fortran_storage_order())` and the rows of `b` backwards, a view, sorted by their last elements, whatever throws. -/
example (sched : List (Option Nat)) : ∃ (w : World Nat) (A : AState Nat) (w' : World Nat), w.Rep A ∧
    ((insertionSort byLast 4).execX true 0 (fun a b => a == b) (fun a b => decide (a < b)) (fun c => if c = 0 then some (1, backRows) else none) (fun t => 2 + t) 0 (fun _ => none) []
        { w with st := { w.st with sched := sched } } = .done true w' ∨
     (insertionSort byLast 4).execX true 0 (fun a b => a == b) (fun a b => decide (a < b)) (fun c => if c = 0 then some (1, backRows) else none) (fun t => 2 + t) 0 (fun _ => none) []
        { w with st := { w.st with sched := sched } } = .threw w') := by
  obtain ⟨w, A, h, h1, h2⟩ := rowsSetup_rep
  obtain ⟨w', A', rows, rows', _, _, _, _, _, _, _, e1⟩ := C97_insertion_sort true 0 (fun a b => a == b) (fun a b => decide (a < b)) 0 byLast_order h sched
    (x := 1) (ss := backRows) ⟨_, h1, backRows_legal _ rfl rfl, rfl⟩ (b := 0) (bs := [0]) (e := 3) (es := [2]) (by decide) (by decide) (by decide) h2 (fuel := 4) (by decide)
  exact ⟨w, A, w', h, e1.imp (fun h => h.1) (fun h => h.1)⟩

/-- What the library's run leaves in `b` and whether it threw: after the setup, the exceptions `sched` are due. -/
def sortSeen (sched : List (Option Nat)) : Option (Bool × List Nat) :=
  (World.execAll true 0 (fun a b => a == b) (fun a b => decide (a < b)) exchangeSetup (World.start [])).bind (fun r =>
    match (insertionSort byLast 4).execX true 0 (fun a b => a == b) (fun a b => decide (a < b)) (fun c => if c = 0 then some (1, backRows) else none) (fun t => 2 + t) 0 (fun _ => none) []
        { r.2 with st := { r.2.st with sched := sched } } with
    | .done _ w => (World.execAll true 0 (fun a b => a == b) (fun a b => decide (a < b)) [.traverse 1 []] w).bind (fun q =>
        match q.1 with | [.values vs] => some (true, vs) | _ => none)
    | .threw w => (World.execAll true 0 (fun a b => a == b) (fun a b => decide (a < b)) [.traverse 1 []] w).bind (fun q =>
        match q.1 with | [.values vs] => some (false, vs) | _ => none)
    | .failed => none)

/-- `b` holds the rows `{10,40}, {20,50}, {30,60}`; without exceptions its rows backwards are sorted. -/
example : sortSeen [] = some (true, [30, 60, 20, 50, 10, 40]) := by decide +kernel

/-- The allocation of the first temporary throws: nothing has changed. -/
example : sortSeen [some 0] = some (false, [10, 40, 20, 50, 30, 60]) := by decide +kernel

/-- The first temporary (allocation, two constructions, two assignments) and the assignment of the row to itself (two assignments) complete; making the second temporary takes five steps; the second element of
the row moved up then throws and has the value 7: the row is torn. -/
example : sortSeen [none, none, none, none, none, none, none, none, none, none, none, none, none, some 7] = some (false, [10, 40, 30, 7, 30, 60]) := by decide +kernel

end MultiArray.Props
